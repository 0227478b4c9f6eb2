import Verif.Lemmas.CrossSections
import Verif.Lemmas.HardSphere

/-!
# Properties C14 - C19, C21, C23: evaluating an R-matrix spin group

`g.Built` says that the constructor of the spin group returned `g`. The theorems are about every
call of `evaluate` or `evaluateTMatrix` that returns finite numbers; C19 says when that is the case.
The reaction identifiers, the energies, the incoming map and the state of the cache are arbitrary.
-/

namespace Verif

open Complex

/-! ## An example used beside the theorems: two open channels, one closed one, two resonances -/

namespace Example

/-- Units in which `ħ = 1`. -/
noncomputable def constants : Constants := ⟨1, 1, one_pos, one_pos⟩

def neutron : Particle := ⟨"n".toList, 1, 0, 1 / 2, 1⟩
def target : Particle := ⟨"T".toList, 1, 10, 0, 1⟩
noncomputable def pair : ParticlePair := ⟨neutron, target, "n,T".toList, 1 / 2, 1 / 2⟩
noncomputable def excited : ParticlePair := ⟨neutron, target, "n,T_e1".toList, 1 / 2, 1 / 2⟩
noncomputable def fissionPair : ParticlePair := ⟨neutron, target, "fission".toList, 1 / 2, 1 / 2⟩
noncomputable def radii : ChannelRadii := ⟨fun _ => .ok 1, fun _ => .ok 1, fun _ => .ok 1⟩

noncomputable def elastic : Channel :=
  makeChannel .neutron pair pair pair.id 0 ⟨0, 1 / 2, 1 / 2, 1⟩ radii 0
noncomputable def inelastic : Channel :=
  makeChannel .neutron pair excited excited.id (-10) ⟨0, 1 / 2, 1 / 2, 1⟩ radii 0
noncomputable def fission : Channel :=
  makeChannel .fission pair fissionPair fissionPair.id 0 ⟨0, 0, 1 / 2, 1⟩ radii 0

noncomputable def channels : List Channel := [elastic, inelastic, fission]

noncomputable def resonances : List Resonance :=
  [⟨1, [1 / 2, 1 / 3, 1 / 5], 1 / 10⟩, ⟨5, [1 / 4, 0, 1], 0⟩]

noncomputable def table : ResonanceTable := ⟨channels.map Channel.id, resonances⟩

theorem consistent : Spec.ConsistentGroup channels table := by
  refine ⟨by simp [channels], ?_, ?_, ?_, ?_, rfl⟩
  · intro c hc d hd
    simp only [channels, List.mem_cons, List.not_mem_nil, or_false] at hc hd
    rcases hc with rfl | rfl | rfl <;> rcases hd with rfl | rfl | rfl <;> rfl
  · have p1 : Physical ⟨0, 1 / 2, 1 / 2, 1⟩ := ⟨⟨1, by norm_num⟩, ⟨1, by norm_num⟩⟩
    have p2 : Physical ⟨0, 0, 1 / 2, 1⟩ := ⟨⟨0, by norm_num⟩, ⟨1, by norm_num⟩⟩
    have n1 : elastic.id ≠ inelastic.id := fun h =>
      absurd ((C07_channelID_injective _ _ _ _ p1 p1).mp h).1 (by decide)
    have n2 : elastic.id ≠ fission.id := fun h =>
      absurd ((C07_channelID_injective _ _ _ _ p1 p2).mp h).1 (by decide)
    have n3 : inelastic.id ≠ fission.id := fun h =>
      absurd ((C07_channelID_injective _ _ _ _ p1 p2).mp h).1 (by decide)
    simp [channels, n1, n2, n3]
  · intro c hc d hd
    simp only [channels, List.mem_cons, List.not_mem_nil, or_false] at hc hd
    rcases hc with rfl | rfl | rfl <;> rcases hd with rfl | rfl | rfl <;> exact ⟨rfl, rfl⟩
  · exact ⟨elastic, by simp [channels], rfl⟩

/-- The spin group of the example. -/
noncomputable def group : SpinGroup := ⟨channels, channels.map Channel.reaction ++
  [.transition pair.id "capture".toList], determineIncidentChannels channels, table⟩

theorem group_built : group.Built := by
  obtain ⟨g, hg⟩ := (C24_accepted _ _).mpr consistent
  have h := C24_contents hg
  obtain ⟨h1, h2, -⟩ := h
  obtain ⟨h3, first, rest, h4, h5, -⟩ := (SpinGroup.Built.of_make hg).1.incident
  have : g = group := by
    obtain ⟨c, r, i, t⟩ := g
    simp only at h1 h2 h3 h4 h5
    subst h1 h2 h3 h5
    have : first = elastic := by
      have := congrArg List.head? h4
      simp only [channels, List.head?_cons, Option.some.injEq] at this
      exact this.symm
    subst this
    rfl
  rw [← this]
  exact (SpinGroup.Built.of_make hg).1

theorem spinFactor_nonneg : ∀ c ∈ group.channels, 0 ≤ c.spinFactor := by
  intro c hc
  have hc' : c ∈ channels := hc
  simp only [channels, List.mem_cons, List.not_mem_nil, or_false] at hc'
  rcases hc' with rfl | rfl | rfl <;>
    simp [elastic, inelastic, fission, makeChannel, statisticalSpinFactor, pair, excited,
      fissionPair, neutron, target]

end Example

/-- The spin factor of a channel of two particles with non-negative spins is positive. -/
theorem spinFactor_pos (type : ChannelType) (incident pair : ParticlePair) (id : Str) (q : ℝ)
    (numbers : QuantumNumbers) (radii : ChannelRadii) (boundary : ℝ)
    (h1 : 0 ≤ numbers.J) (h2 : 0 ≤ pair.particle.spin) (h3 : 0 ≤ pair.residual.spin) :
    0 < (makeChannel type incident pair id q numbers radii boundary).spinFactor := by
  simp only [makeChannel, statisticalSpinFactor]
  positivity

/-! ## C19: when evaluation succeeds -/

section

variable {option : BoundaryOption} {K : Constants} {lib : CoulombLibrary} {g : SpinGroup} {E : ℝ}

/-- C19: evaluation returns finite numbers whenever the channel functions do, the penetrabilities are
not negative and positive in open channels (this last condition only with constant boundary
conditions), the energy is not that of a resonance without eliminated width, and the wave number of
the first incident channel is not zero. In particular the level matrix is never singular. -/
theorem C19_evaluation_succeeds (hg : g.Built) {P S w phi : Fin g.channels.length → ℝ}
    (hP : ∀ i : Fin g.channels.length, g.channels[i].penetrability K lib E = .ok (P i))
    (hS : option = .constant →
      ∀ i : Fin g.channels.length, g.channels[i].shiftFactor K lib E = .ok (S i))
    (hw : ∀ i : Fin g.channels.length, g.channels[i].coulombPhaseShift K E = .ok (w i))
    (hphi : ∀ i : Fin g.channels.length, g.channels[i].phaseShift K lib E = .ok (phi i))
    (hnn : ∀ i, 0 ≤ P i)
    (hopen : option = .constant →
      ∀ i : Fin g.channels.length, ¬ g.channels[i].belowThreshold E → 0 < P i)
    (hwidths : ∀ r ∈ g.table.resonances, r.widths.length = g.channels.length)
    (hpole : ∀ r ∈ g.table.resonances, ¬ (r.energy = E ∧ r.eliminated = 0))
    (hk : ∀ c ∈ g.channels, c.pair.id = c.incident.id → c.waveNumber K E ≠ 0)
    (cache : MatrixCache g.channels.length) (result : CrossSectionMap) (tresult : Str → Option ℂ) :
    (∃ r, g.evaluate option K lib E cache result = .ok r) ∧
      ∃ r, g.evaluateTMatrix option K lib E cache tresult = .ok r := by
  have hdet : (Spec.levelDenominator option g.channels g.table.resonances E P S).det ≠ 0 := by
    rw [Spec.levelDenominator, logDerivative_eq]
    apply level_det_ne_zero _ _ hnn (imForm_rMatrix_nonneg _ _ _)
    intro i hi
    cases option with
    | shiftFactor => exact Or.inl rfl
    | constant =>
      right
      by_cases hb : g.channels[i].belowThreshold E
      · exact rMatrix_closed _ _ _ _ hb
      · exact absurd hi (hopen rfl i hb).ne'
  have hfind : ∃ c, g.channels.find? Channel.isIncident = some c ∧ c.waveNumber K E ≠ 0 := by
    obtain ⟨c, hc, hinc⟩ := ((C24_accepted _ _).mp ⟨g, hg⟩).hasIncident
    cases hf : g.channels.find? Channel.isIncident with
    | none =>
      have := List.find?_eq_none.mp hf c hc
      simp [Channel.isIncident, hinc] at this
    | some d =>
      refine ⟨d, rfl, hk d (List.mem_of_find?_eq_some hf) ?_⟩
      have := List.find?_some hf
      simpa [Channel.isIncident] using this
  have hev : Spec.Evaluable option K lib g.channels g.table.resonances E P S w phi :=
    ⟨hP, hS, hw, hphi, hnn, hwidths, hpole, hdet, hfind⟩
  exact ⟨evaluate_ok_of hg hev cache result, evaluateTMatrix_ok_of hev cache tresult⟩

theorem waveNumber_pos {c : Channel} (hm : 0 < c.pair.reducedMass)
    (he : c.incident.massRatio * E + c.q ≠ 0) : 0 < c.waveNumber K E := by
  unfold Channel.waveNumber
  have he' : E * c.incident.massRatio + c.q ≠ 0 := by rwa [mul_comm]
  have : 0 < 2 * c.pair.reducedMass * |E * c.incident.massRatio + c.q| := by
    have := abs_pos.mpr he'
    positivity
  exact div_pos (Real.sqrt_pos.mpr this) K.hbar_pos

/-- What a channel without Coulomb interaction must satisfy for its functions to be defined and
positive at an energy. -/
structure NeutralAt (E : ℝ) (c : Channel) : Prop where
  notCharged : c.type ≠ .charged
  lmax : c.type = .neutron → c.numbers.l ≤ 4
  mass : c.type = .neutron ∨ c.pair.id = c.incident.id → 0 < c.pair.reducedMass
  notThreshold : c.incident.massRatio * E + c.q ≠ 0
  radiusP : ∃ a, 0 < a ∧ c.radii.penetrability E = .ok a
  radiusS : ∃ a, c.radii.shiftFactor E = .ok a
  radiusPhi : ∃ a, c.radii.phaseShift E = .ok a

theorem NeutralAt.values {c : Channel} (h : NeutralAt E c) :
    (∃ p, 0 < p ∧ c.penetrability K lib E = .ok p) ∧ (∃ s, c.shiftFactor K lib E = .ok s) ∧
      (∃ w, c.coulombPhaseShift K E = .ok w) ∧ ∃ phi, c.phaseShift K lib E = .ok phi := by
  obtain ⟨a, ha, hra⟩ := h.radiusP
  obtain ⟨b, hrb⟩ := h.radiusS
  obtain ⟨d, hrd⟩ := h.radiusPhi
  have heta : c.eta K E = .ok 0 := if_neg h.notCharged
  simp only [Channel.penetrability, Channel.shiftFactor, Channel.phaseShift,
    Channel.coulombPhaseShift, heta, hra, hrb, hrd, bind, Except.bind]
  cases ht : c.type with
  | charged => exact absurd ht h.notCharged
  | photon => exact ⟨⟨1, one_pos, rfl⟩, ⟨_, rfl⟩, ⟨_, rfl⟩, ⟨_, rfl⟩⟩
  | fission => exact ⟨⟨1, one_pos, rfl⟩, ⟨_, rfl⟩, ⟨_, rfl⟩, ⟨_, rfl⟩⟩
  | neutron =>
    have hl := h.lmax ht
    have hk : 0 < c.waveNumber K E := waveNumber_pos (h.mass (Or.inl ht)) h.notThreshold
    rw [calculatePenetrability_eq lib hl, calculateShiftFactor_eq lib hl,
      calculatePhaseShift_eq lib hl]
    refine ⟨⟨_, ?_, rfl⟩, ⟨_, rfl⟩, ⟨_, rfl⟩, ⟨_, rfl⟩⟩
    have hρ : 0 < c.waveNumber K E * a := mul_pos hk ha
    generalize c.waveNumber K E * a = ρ at hρ
    generalize c.numbers.l = l at hl
    interval_cases l <;> simp only [hsP] <;> positivity

/-- C19 in terms of the input data: for channels without Coulomb interaction (neutron channels with
`l` up to 4, photon and fission channels) evaluation returns finite numbers at every energy that is
not exactly a threshold or the energy of a resonance without eliminated width. -/
theorem C19_neutral_channels (hg : g.Built) (hc : ∀ c ∈ g.channels, NeutralAt E c)
    (hwidths : ∀ r ∈ g.table.resonances, r.widths.length = g.channels.length)
    (hpole : ∀ r ∈ g.table.resonances, ¬ (r.energy = E ∧ r.eliminated = 0))
    (cache : MatrixCache g.channels.length) (result : CrossSectionMap) (tresult : Str → Option ℂ) :
    (∃ r, g.evaluate option K lib E cache result = .ok r) ∧
      ∃ r, g.evaluateTMatrix option K lib E cache tresult = .ok r := by
  have hv := fun i : Fin g.channels.length =>
    (hc g.channels[i] (List.getElem_mem _)).values (K := K) (lib := lib)
  choose P hP using fun i => (hv i).1
  choose S hS using fun i => (hv i).2.1
  choose w hw using fun i => (hv i).2.2.1
  choose phi hphi using fun i => (hv i).2.2.2
  exact C19_evaluation_succeeds hg (fun i => (hP i).2) (fun _ => hS) hw hphi
    (fun i => (hP i).1.le) (fun _ i _ => (hP i).1) hwidths hpole
    (fun c hcm hinc => (waveNumber_pos ((hc c hcm).mass (Or.inr hinc)) (hc c hcm).notThreshold).ne')
    cache result tresult

namespace Example

theorem neutralAt : ∀ c ∈ group.channels, NeutralAt 2 c := by
  intro c hc
  have hc' : c ∈ channels := hc
  simp only [channels, List.mem_cons, List.not_mem_nil, or_false] at hc'
  rcases hc' with rfl | rfl | rfl
  · exact ⟨by decide, fun _ => by decide, fun _ => by norm_num [elastic, makeChannel, pair],
      by norm_num [elastic, makeChannel, pair], ⟨1, one_pos, rfl⟩, ⟨1, rfl⟩, ⟨1, rfl⟩⟩
  · exact ⟨by decide, fun _ => by decide, fun _ => by norm_num [inelastic, makeChannel, excited],
      by norm_num [inelastic, makeChannel, pair], ⟨1, one_pos, rfl⟩, ⟨1, rfl⟩, ⟨1, rfl⟩⟩
  · exact ⟨by decide, fun h => absurd h (by decide),
      fun _ => by norm_num [fission, makeChannel, fissionPair],
      by norm_num [fission, makeChannel, pair], ⟨1, one_pos, rfl⟩, ⟨1, rfl⟩, ⟨1, rfl⟩⟩

theorem widths : ∀ r ∈ group.table.resonances, r.widths.length = group.channels.length := by
  intro r hr
  have hr' : r ∈ resonances := hr
  simp only [resonances, List.mem_cons, List.not_mem_nil, or_false] at hr'
  rcases hr' with rfl | rfl <;> rfl

theorem noPole : ∀ r ∈ group.table.resonances, ¬ (r.energy = 2 ∧ r.eliminated = 0) := by
  intro r hr
  have hr' : r ∈ resonances := hr
  simp only [resonances, List.mem_cons, List.not_mem_nil, or_false] at hr'
  rcases hr' with rfl | rfl <;> norm_num

/-- The example can be evaluated at energy 2 with both boundary conditions; the second channel is
closed there. -/
theorem evaluates (option : BoundaryOption) (lib : CoulombLibrary)
    (cache : MatrixCache group.channels.length) (result : CrossSectionMap)
    (tresult : Str → Option ℂ) :
    (∃ r, group.evaluate option constants lib 2 cache result = .ok r) ∧
      ∃ r, group.evaluateTMatrix option constants lib 2 cache tresult = .ok r :=
  C19_neutral_channels group_built neutralAt widths noPole cache result tresult

theorem closed : inelastic.belowThreshold 2 := by
  norm_num [Channel.belowThreshold, inelastic, makeChannel, pair]

theorem noArrow : ∀ c ∈ group.channels, ¬ ContainsArrow c.id := by
  have p1 : Physical ⟨0, 1 / 2, 1 / 2, 1⟩ := ⟨⟨1, by norm_num⟩, ⟨1, by norm_num⟩⟩
  have p2 : Physical ⟨0, 0, 1 / 2, 1⟩ := ⟨⟨0, by norm_num⟩, ⟨1, by norm_num⟩⟩
  intro c hc
  have hc' : c ∈ channels := hc
  simp only [channels, List.mem_cons, List.not_mem_nil, or_false] at hc'
  rcases hc' with rfl | rfl | rfl
  · exact not_containsArrow_channelID _ _ p1 (by unfold ContainsArrow; decide)
  · exact not_containsArrow_channelID _ _ p1 (by unfold ContainsArrow; decide)
  · exact not_containsArrow_channelID _ _ p2 (by unfold ContainsArrow; decide)

theorem incident_id : ∀ c ∈ group.channels, c.incident.id = pair.id := by
  intro c hc
  have hc' : c ∈ channels := hc
  simp only [channels, List.mem_cons, List.not_mem_nil, or_false] at hc'
  rcases hc' with rfl | rfl | rfl <;> rfl

/-- The same group with resonances without eliminated widths. -/
noncomputable def lossless : SpinGroup :=
  { group with table := ⟨table.channels, [⟨1, [1 / 2, 1 / 3, 1 / 5], 0⟩]⟩ }

theorem lossless_built : lossless.Built := by
  have h : Spec.ConsistentGroup channels lossless.table :=
    { consistent with sameTable := rfl }
  obtain ⟨g, hg⟩ := (C24_accepted _ _).mpr h
  have h := C24_contents hg
  obtain ⟨h1, h2, -⟩ := h
  obtain ⟨h3, first, rest, h4, h5, -⟩ := (SpinGroup.Built.of_make hg).1.incident
  have : g = lossless := by
    obtain ⟨c, r, i, t⟩ := g
    simp only at h1 h2 h3 h4 h5
    subst h1 h2 h3 h5
    have : first = elastic := by
      have := congrArg List.head? h4
      simp only [channels, List.head?_cons, Option.some.injEq] at this
      exact this.symm
    subst this
    rfl
  rw [← this]
  exact (SpinGroup.Built.of_make hg).1

theorem lossless_evaluates (option : BoundaryOption) (lib : CoulombLibrary)
    (cache : MatrixCache lossless.channels.length) (result : CrossSectionMap)
    (tresult : Str → Option ℂ) :
    (∃ r, lossless.evaluate option constants lib 2 cache result = .ok r) ∧
      ∃ r, lossless.evaluateTMatrix option constants lib 2 cache tresult = .ok r := by
  refine C19_neutral_channels lossless_built neutralAt ?_ ?_ cache result tresult
  · intro r hr
    simp only [lossless, List.mem_cons, List.not_mem_nil, or_false] at hr
    subst hr
    rfl
  · intro r hr
    simp only [lossless, List.mem_cons, List.not_mem_nil, or_false] at hr
    subst hr
    norm_num

end Example

end

section

variable {option : BoundaryOption} {K : Constants} {lib : CoulombLibrary} {g : SpinGroup} {E : ℝ}
  {cache cache' : MatrixCache g.channels.length} {result result' : CrossSectionMap}
  {tresult tresult' : Str → Option ℂ}

/-! ## C14 -/

/-- C14: evaluation never lowers the capture cross section, i.e. adds a non-negative amount. -/
theorem C14_capture_nonneg (hg : g.Built) (hspin : ∀ c ∈ g.channels, 0 ≤ c.spinFactor)
    (h : g.evaluate option K lib E cache result = .ok (result', cache'))
    (incident : PairID) (hinc : ∀ c ∈ g.channels, c.incident.id = incident) :
    (result (.transition incident "capture".toList)).getD 0
      ≤ (result' (.transition incident "capture".toList)).getD 0 ∧
    (result' (.transition incident "capture".toList)).isSome := by
  obtain ⟨P, S, w, phi, hev, hres⟩ := evaluate_ok hg h
  obtain ⟨-, first, rest, h2, h3, -⟩ := hg.incident
  have hmem : ReactionID.transition incident "capture".toList ∈ g.reactions := by
    have hf : first.incident.id = incident := hinc first (by rw [h2]; exact List.mem_cons_self)
    rw [h3, List.mem_append, ← hf]
    exact Or.inr (List.mem_singleton.mpr rfl)
  rw [hres, if_pos hmem]
  refine ⟨?_, rfl⟩
  have := contribution_nonneg (K := K) (w := w) (phi := phi) hev.nonneg hspin hev.invertible
    (.transition incident "capture".toList)
  rw [Option.getD_some]
  linarith

open Example in
example (option : BoundaryOption) (lib : CoulombLibrary) (cache : MatrixCache group.channels.length) :
    ∃ r c, group.evaluate option constants lib 2 cache (fun _ => none) = .ok (r, c) ∧
      0 ≤ (r (.transition "n,T".toList "capture".toList)).getD 0 := by
  obtain ⟨⟨r, c⟩, h⟩ := (evaluates option lib cache (fun _ => none) (fun _ => none)).1
  exact ⟨r, c, h, (C14_capture_nonneg group_built spinFactor_nonneg h _ incident_id).1⟩

/-- C14, the reason: each row of the collision matrix `1 + 2iT` (the phases do not matter) has norm at
most one. The T-matrix elements are read from the map that `evaluateTMatrix` returns. -/
theorem C14_row_norm_le_one (hg : g.Built) (harrow : ∀ c ∈ g.channels, ¬ ContainsArrow c.id)
    (h : g.evaluateTMatrix option K lib E cache tresult = .ok (tresult', cache'))
    (c : Fin g.channels.length) :
    ∑ c' : Fin g.channels.length, normSq ((if c = c' then 1 else 0) +
      2 * I * (tresult' (tMatrixKey g.channels[c].id g.channels[c'].id)).getD 0) ≤ 1 := by
  obtain ⟨P, S, -, -, hnn, -, hdet, hT, -⟩ := evaluateTMatrix_ok hg harrow h
  simp only [hT, Option.getD_some]
  rw [tMatrix_norm hnn hdet]
  have := imForm_rMatrix_nonneg g.channels E g.table.resonances
    (lossVector (Spec.rMatrix g.channels g.table.resonances E) (realL g.channels option S) P c)
  linarith

open Example in
example (option : BoundaryOption) (lib : CoulombLibrary) (cache : MatrixCache group.channels.length) :
    ∃ t c, group.evaluateTMatrix option constants lib 2 cache (fun _ => none) = .ok (t, c) ∧
      ∀ i : Fin group.channels.length, ∑ j : Fin group.channels.length, normSq ((if i = j then 1 else 0)
        + 2 * I * (t (tMatrixKey group.channels[i].id group.channels[j].id)).getD 0) ≤ 1 := by
  obtain ⟨⟨t, c⟩, h⟩ := (evaluates option lib cache (fun _ => none) (fun _ => none)).2
  exact ⟨t, c, h, C14_row_norm_le_one group_built noArrow h⟩

/-! ## C15 -/

/-- C15: if all eliminated widths are zero, evaluation leaves the capture cross section as it was
(zero if it was not there), unless the group has an explicit channel called "capture". -/
theorem C15_no_capture (hg : g.Built) (helim : ∀ r ∈ g.table.resonances, r.eliminated = 0)
    (h : g.evaluate option K lib E cache result = .ok (result', cache'))
    (incident : PairID) (hname : ∀ c ∈ g.channels, c.reaction ≠ .transition incident "capture".toList) :
    (result' (.transition incident "capture".toList)).getD 0
      = (result (.transition incident "capture".toList)).getD 0 := by
  obtain ⟨P, S, w, phi, hev, hres⟩ := evaluate_ok hg h
  rw [hres]
  split
  · rw [Option.getD_some]
    have : Spec.contribution option K g.channels g.table.resonances E P S w phi
        (.transition incident "capture".toList) = 0 := by
      unfold Spec.contribution
      apply Finset.sum_eq_zero
      intro c _
      split
      · rw [capture_zero hev.nonneg helim hev.invertible, mul_zero, ite_self, add_zero]
        apply Finset.sum_eq_zero
        intro c' _
        exact if_neg (hname _ (List.getElem_mem _))
      · rfl
    rw [this, add_zero]
  · rfl

open Example in
example (option : BoundaryOption) (lib : CoulombLibrary)
    (cache : MatrixCache lossless.channels.length) :
    ∃ r c, lossless.evaluate option constants lib 2 cache (fun _ => none) = .ok (r, c) ∧
      (r (.transition "n,T".toList "capture".toList)).getD 0 = 0 := by
  obtain ⟨⟨r, c⟩, h⟩ := (lossless_evaluates option lib cache (fun _ => none) (fun _ => none)).1
  refine ⟨r, c, h, C15_no_capture lossless_built ?_ h _ ?_⟩
  · intro r hr
    simp only [lossless, List.mem_cons, List.not_mem_nil, or_false] at hr
    subst hr
    rfl
  · intro c hc
    have hc' : c ∈ channels := hc
    simp only [channels, List.mem_cons, List.not_mem_nil, or_false] at hc'
    rcases hc' with rfl | rfl | rfl <;> decide

/-- C15, the reason: each row of `1 + 2iT` has norm one. -/
theorem C15_row_norm_eq_one (hg : g.Built) (harrow : ∀ c ∈ g.channels, ¬ ContainsArrow c.id)
    (helim : ∀ r ∈ g.table.resonances, r.eliminated = 0)
    (h : g.evaluateTMatrix option K lib E cache tresult = .ok (tresult', cache'))
    (c : Fin g.channels.length) :
    ∑ c' : Fin g.channels.length, normSq ((if c = c' then 1 else 0) +
      2 * I * (tresult' (tMatrixKey g.channels[c].id g.channels[c'].id)).getD 0) = 1 := by
  obtain ⟨P, S, -, -, hnn, -, hdet, hT, -⟩ := evaluateTMatrix_ok hg harrow h
  simp only [hT, Option.getD_some]
  rw [tMatrix_norm hnn hdet, imForm_rMatrix_zero _ _ _ helim]
  ring

open Example in
example (option : BoundaryOption) (lib : CoulombLibrary)
    (cache : MatrixCache lossless.channels.length) :
    ∃ t c, lossless.evaluateTMatrix option constants lib 2 cache (fun _ => none) = .ok (t, c) ∧
      ∀ i : Fin lossless.channels.length, ∑ j : Fin lossless.channels.length, normSq ((if i = j then 1 else 0)
        + 2 * I * (t (tMatrixKey lossless.channels[i].id lossless.channels[j].id)).getD 0) = 1 := by
  obtain ⟨⟨t, c⟩, h⟩ := (lossless_evaluates option lib cache (fun _ => none) (fun _ => none)).2
  refine ⟨t, c, h, C15_row_norm_eq_one lossless_built noArrow ?_ h⟩
  intro r hr
  simp only [lossless, List.mem_cons, List.not_mem_nil, or_false] at hr
  subst hr
  rfl

/-! ## C16 -/

/-- C16 (optical theorem): all cross sections that an evaluation adds sum up to
`Σ_c 2 π/k² g (1 - Re(exp(-i w_c) U_cc))` over the incident channels, where
`exp(-i w_c) U_cc = exp(i (w_c - 2 φ_c)) (1 + 2 i T_cc)` and `T` is what `evaluateTMatrix` returns. -/
theorem C16_optical_theorem (hg : g.Built) (harrow : ∀ c ∈ g.channels, ¬ ContainsArrow c.id)
    (h : g.evaluate option K lib E cache result = .ok (result', cache'))
    {cache₂ : MatrixCache g.channels.length}
    (ht : g.evaluateTMatrix option K lib E cache tresult = .ok (tresult', cache₂)) :
    ∃ w phi : Fin g.channels.length → ℝ,
      (∀ i : Fin g.channels.length, g.channels[i].coulombPhaseShift K E = .ok (w i)) ∧
      (∀ i : Fin g.channels.length, g.channels[i].phaseShift K lib E = .ok (phi i)) ∧
      ∑ id ∈ g.reactions.toFinset, ((result' id).getD 0 - (result id).getD 0)
        = ∑ c : Fin g.channels.length, if g.channels[c].isIncident then
            2 * Spec.incidentFactor K g.channels E * (1 - (exp (I * (w c - 2 * phi c)) *
              (1 + 2 * I * (tresult' (tMatrixKey g.channels[c].id g.channels[c].id)).getD 0)).re)
          else 0 := by
  obtain ⟨P, S, w, phi, hev, hres⟩ := evaluate_ok hg h
  obtain ⟨P', S', hP', hS', hnn, -, hdet, hT, -⟩ := evaluateTMatrix_ok hg harrow ht
  refine ⟨w, phi, hev.coulomb, hev.phase, ?_⟩
  have hPP : P' = P := by
    funext i
    simpa using (hP' i).symm.trans (hev.penetrability i)
  subst hPP
  have hTT : Spec.tMatrix option g.channels g.table.resonances E P' S'
      = Spec.tMatrix option g.channels g.table.resonances E P' S := by
    cases option with
    | shiftFactor => rfl
    | constant =>
      have : S' = S := by
        funext i
        simpa using (hS' rfl i).symm.trans (hev.shiftFactor rfl i)
      rw [this]
  obtain ⟨-, first, rest, h2, h3, -⟩ := hg.incident
  have hcap := captureID_eq h2
  have hsum : ∑ id ∈ g.reactions.toFinset, ((result' id).getD 0 - (result id).getD 0)
      = ∑ id ∈ g.reactions.toFinset,
        Spec.contribution option K g.channels g.table.resonances E P' S w phi id := by
    refine Finset.sum_congr rfl fun id hid => ?_
    rw [hres, if_pos (List.mem_toFinset.mp hid), Option.getD_some]
    ring
  rw [hsum]
  unfold Spec.contribution
  rw [Finset.sum_comm]
  refine Finset.sum_congr rfl fun c _ => ?_
  by_cases hc : g.channels[c].isIncident
  · simp only [hc, if_true]
    rw [Finset.sum_add_distrib, Finset.sum_comm]
    have hmem : ∀ c' : Fin g.channels.length, g.channels[c'].reaction ∈ g.reactions.toFinset := by
      intro c'
      rw [List.mem_toFinset, h3, List.mem_append]
      exact Or.inl (List.mem_map.mpr ⟨_, List.getElem_mem _, rfl⟩)
    have hmem2 : ReactionID.transition first.incident.id "capture".toList
        ∈ g.reactions.toFinset := by
      rw [List.mem_toFinset, h3, List.mem_append]
      exact Or.inr (List.mem_singleton.mpr rfl)
    simp only [hcap, Option.some.injEq, Finset.sum_ite_eq, hmem, hmem2, if_true]
    rw [← Finset.mul_sum, ← mul_add, row_optical, hT, Option.getD_some, hTT]
    have : exp (-(I * w c)) *
        Spec.collision (Spec.tMatrix option g.channels g.table.resonances E P' S) w phi c c
        = exp (I * (w c - 2 * phi c)) *
          (1 + 2 * I * Spec.tMatrix option g.channels g.table.resonances E P' S c c) := by
      rw [Spec.collision, if_pos rfl]
      have e : exp (I * (w c - 2 * phi c : ℂ))
          = exp (-(I * w c)) * exp (I * (w c - phi c)) * exp (I * (w c - phi c)) := by
        rw [← exp_add, ← exp_add]
        congr 1
        ring
      rw [e]
      ring
    rw [this]
    ring
  · rw [if_neg hc]
    exact Finset.sum_eq_zero fun id _ => if_neg hc

open Example in
example (option : BoundaryOption) (lib : CoulombLibrary) (cache : MatrixCache group.channels.length) :
    ∃ r c t c₂, group.evaluate option constants lib 2 cache (fun _ => none) = .ok (r, c) ∧
      group.evaluateTMatrix option constants lib 2 cache (fun _ => none) = .ok (t, c₂) ∧
      group.Built ∧ ∀ c ∈ group.channels, ¬ ContainsArrow c.id := by
  obtain ⟨⟨⟨r, c⟩, h⟩, ⟨t, c₂⟩, h₂⟩ := evaluates option lib cache (fun _ => none) (fun _ => none)
  exact ⟨r, c, t, c₂, h, h₂, group_built, noArrow⟩

/-! ## C17 -/

/-- C17: the T-matrix is symmetric. -/
theorem C17_symmetric (hg : g.Built) (harrow : ∀ c ∈ g.channels, ¬ ContainsArrow c.id)
    (h : g.evaluateTMatrix option K lib E cache tresult = .ok (tresult', cache'))
    (a b : Channel) (ha : a ∈ g.channels) (hb : b ∈ g.channels) :
    tresult' (tMatrixKey a.id b.id) = tresult' (tMatrixKey b.id a.id) ∧
      (tresult' (tMatrixKey a.id b.id)).isSome := by
  obtain ⟨P, S, -, -, -, -, hdet, hT, -⟩ := evaluateTMatrix_ok hg harrow h
  obtain ⟨i, hi, rfl⟩ := List.getElem_of_mem ha
  obtain ⟨j, hj, rfl⟩ := List.getElem_of_mem hb
  have h1 := hT ⟨i, hi⟩ ⟨j, hj⟩
  have h2 := hT ⟨j, hj⟩ ⟨i, hi⟩
  simp only [Fin.getElem_fin] at h1 h2
  rw [h1, h2, tMatrix_symm hdet]
  exact ⟨rfl, rfl⟩

open Example in
example (option : BoundaryOption) (lib : CoulombLibrary) (cache : MatrixCache group.channels.length) :
    ∃ t c, group.evaluateTMatrix option constants lib 2 cache (fun _ => none) = .ok (t, c) ∧
      t (tMatrixKey elastic.id fission.id) = t (tMatrixKey fission.id elastic.id) := by
  obtain ⟨⟨t, c⟩, h⟩ := (evaluates option lib cache (fun _ => none) (fun _ => none)).2
  exact ⟨t, c, h, (C17_symmetric group_built noArrow h _ _ (by simp [group, channels])
    (by simp [group, channels])).1⟩

/-! ## C18 -/

/-- C18: T-matrix elements to and from a closed channel are zero. -/
theorem C18_closed_tMatrix (hg : g.Built) (harrow : ∀ c ∈ g.channels, ¬ ContainsArrow c.id)
    (h : g.evaluateTMatrix option K lib E cache tresult = .ok (tresult', cache'))
    (a b : Channel) (ha : a ∈ g.channels) (hb : b ∈ g.channels) (hclosed : b.belowThreshold E) :
    tresult' (tMatrixKey a.id b.id) = some 0 ∧ tresult' (tMatrixKey b.id a.id) = some 0 := by
  rw [(C17_symmetric hg harrow h b a hb ha).1, and_self]
  obtain ⟨P, S, -, -, -, -, hdet, hT, -⟩ := evaluateTMatrix_ok hg harrow h
  obtain ⟨i, hi, rfl⟩ := List.getElem_of_mem ha
  obtain ⟨j, hj, rfl⟩ := List.getElem_of_mem hb
  have h1 := hT ⟨i, hi⟩ ⟨j, hj⟩
  simp only [Fin.getElem_fin] at h1
  rw [h1, tMatrix_closed (c := ⟨j, hj⟩) hclosed]

open Example in
example (option : BoundaryOption) (lib : CoulombLibrary) (cache : MatrixCache group.channels.length) :
    ∃ t c, group.evaluateTMatrix option constants lib 2 cache (fun _ => none) = .ok (t, c) ∧
      t (tMatrixKey elastic.id inelastic.id) = some 0 := by
  obtain ⟨⟨t, c⟩, h⟩ := (evaluates option lib cache (fun _ => none) (fun _ => none)).2
  exact ⟨t, c, h, (C18_closed_tMatrix group_built noArrow h elastic inelastic
    (by simp [group, channels]) (by simp [group, channels]) closed).1⟩

/-- C18: nothing is added to a reaction whose channels are all closed (other than capture and
elastic scattering). -/
theorem C18_closed_cross_section (hg : g.Built)
    (h : g.evaluate option K lib E cache result = .ok (result', cache')) (id : ReactionID)
    (hcap : ∀ incident, id ≠ .transition incident "capture".toList)
    (hclosed : ∀ c ∈ g.channels, c.reaction = id → c.belowThreshold E ∧ c.pair.id ≠ c.incident.id) :
    (result' id).getD 0 = (result id).getD 0 := by
  obtain ⟨P, S, w, phi, hev, hres⟩ := evaluate_ok hg h
  rw [hres]
  split
  · rw [Option.getD_some]
    have : Spec.contribution option K g.channels g.table.resonances E P S w phi id = 0 := by
      unfold Spec.contribution
      apply Finset.sum_eq_zero
      intro c _
      split
      · rename_i hinc
        rw [if_neg, add_zero]
        · apply Finset.sum_eq_zero
          intro c' _
          split
          · rename_i hid
            obtain ⟨h1, h2⟩ := hclosed _ (List.getElem_mem _) hid
            have hne : c ≠ c' := by
              rintro rfl
              simp only [Channel.isIncident, beq_iff_eq] at hinc
              exact h2 hinc
            rw [Spec.partialCrossSection, if_neg hne, Spec.collision, if_neg hne,
              tMatrix_closed h1]
            simp
          · rfl
        · obtain ⟨-, first, rest, h2, -, -⟩ := hg.incident
          rw [captureID_eq h2, Option.some.injEq]
          exact fun h => hcap _ h.symm
      · rfl
    rw [this, add_zero]
  · rfl

open Example in
example (option : BoundaryOption) (lib : CoulombLibrary) (cache : MatrixCache group.channels.length) :
    ∃ r c, group.evaluate option constants lib 2 cache (fun _ => none) = .ok (r, c) ∧
      (r inelastic.reaction).getD 0 = 0 := by
  obtain ⟨⟨r, c⟩, h⟩ := (evaluates option lib cache (fun _ => none) (fun _ => none)).1
  refine ⟨r, c, h, C18_closed_cross_section group_built h _ ?_ ?_⟩
  · intro incident h
    have h2 : inelastic.reaction = .transition pair.id excited.id := by decide
    rw [h2, ReactionID.transition.injEq] at h
    exact absurd h.2 (by decide)
  · intro c hc hr
    have hc' : c ∈ channels := hc
    simp only [channels, List.mem_cons, List.not_mem_nil, or_false] at hc'
    rcases hc' with rfl | rfl | rfl
    · exact absurd hr (by decide)
    · exact ⟨closed, by decide⟩
    · exact absurd hr (by decide)

end

/-- Two lists of resonances that differ only in the widths of channels closed at the energy. -/
def Spec.SameOpenWidths (channels : List Channel) (E : ℝ) : List Resonance → List Resonance → Prop :=
  List.Forall₂ fun r r' => r.energy = r'.energy ∧ r.eliminated = r'.eliminated ∧
    r.widths.length = r'.widths.length ∧
    ∀ c : Fin channels.length, ¬ channels[c].belowThreshold E → r.width c = r'.width c

theorem rMatrix_sameOpenWidths {channels : List Channel} {E : ℝ} {rs rs' : List Resonance}
    (h : Spec.SameOpenWidths channels E rs rs') :
    Spec.rMatrix channels rs E = Spec.rMatrix channels rs' E := by
  induction h with
  | nil => rfl
  | @cons r r' _ _ h1 _ ih =>
    rw [rMatrix_cons, rMatrix_cons, ih]
    congr 1
    ext i j
    have hamp : ∀ c, Spec.amplitude channels E r c = Spec.amplitude channels E r' c := by
      intro c
      unfold Spec.amplitude
      by_cases hb : channels[c].belowThreshold E
      · rw [if_pos hb, if_pos hb]
      · rw [if_neg hb, if_neg hb]
        exact h1.2.2.2 c hb
    simp only [Matrix.of_apply, hamp, denominator_eq, h1.1, h1.2.1]

/-- C18: the widths of closed channels do not matter: two resonance lists that differ only there
give the same outcome for both evaluations - in particular setting these widths to zero changes
nothing. -/
theorem C18_closed_widths_irrelevant {option : BoundaryOption} {K : Constants}
    {lib : CoulombLibrary} (channels : List Channel) (reactions : List ReactionID)
    (incident : List (Fin channels.length)) (ids : List Str) (rs rs' : List Resonance) (E : ℝ)
    (h : Spec.SameOpenWidths channels E rs rs') (cache : MatrixCache channels.length)
    (result : CrossSectionMap) (tresult : Str → Option ℂ) :
    SpinGroup.evaluate option K lib ⟨channels, reactions, incident, ⟨ids, rs⟩⟩ E cache result
      = SpinGroup.evaluate option K lib ⟨channels, reactions, incident, ⟨ids, rs'⟩⟩ E cache result ∧
    SpinGroup.evaluateTMatrix option K lib ⟨channels, reactions, incident, ⟨ids, rs⟩⟩ E cache tresult
      = SpinGroup.evaluateTMatrix option K lib ⟨channels, reactions, incident, ⟨ids, rs'⟩⟩ E cache
          tresult := by
  have h1 : (∀ r ∈ rs, r.widths.length = channels.length) ↔
      ∀ r ∈ rs', r.widths.length = channels.length := by
    clear result tresult cache
    induction h with
    | nil => simp
    | cons h1 _ ih => simp only [List.mem_cons, forall_eq_or_imp, ih, h1.2.2.1]
  have h2 : (∃ r ∈ rs, r.denominator E = 0) ↔ ∃ r ∈ rs', r.denominator E = 0 := by
    clear h1
    induction h with
    | nil => simp
    | @cons r r' _ _ h1 _ ih =>
      have hd : r.denominator E = r'.denominator E := by
        rw [denominator_eq, denominator_eq, h1.1, h1.2.1]
      simp only [List.mem_cons, exists_eq_or_imp, ih, hd]
  have h3 := rMatrix_sameOpenWidths h
  have key : ∀ P, rlmatrix option K lib channels rs E P cache
      = rlmatrix option K lib channels rs' E P cache := fun P => rlmatrix_congr h1 h2 h3
  refine ⟨?_, ?_⟩
  · simp only [SpinGroup.evaluate, SpinGroup.prepare, key]
    cases incident <;> rfl
  · simp only [SpinGroup.evaluateTMatrix, key]

open Example in
/-- In the example the width of the closed second channel can be changed. -/
example : Spec.SameOpenWidths channels 2 [⟨1, [1 / 2, 1 / 3, 1 / 5], 1 / 10⟩]
    [⟨1, [1 / 2, 0, 1 / 5], 1 / 10⟩] := by
  refine List.Forall₂.cons ⟨rfl, rfl, rfl, ?_⟩ List.Forall₂.nil
  intro c hc
  obtain ⟨c, hlt⟩ := c
  have hlt' : c < 3 := hlt
  interval_cases c
  · rfl
  · exact absurd closed hc
  · rfl

/-! ## C21 -/

/-- C21: no entry of the map is ever lowered by an evaluation: every partial cross section is
non-negative. -/
theorem C21_nonneg {option : BoundaryOption} {K : Constants} {lib : CoulombLibrary} {g : SpinGroup}
    {E : ℝ} {cache cache' : MatrixCache g.channels.length} {result result' : CrossSectionMap}
    (hg : g.Built) (hspin : ∀ c ∈ g.channels, 0 ≤ c.spinFactor)
    (h : g.evaluate option K lib E cache result = .ok (result', cache')) (id : ReactionID) :
    (result id).getD 0 ≤ (result' id).getD 0 := by
  obtain ⟨P, S, w, phi, hev, hres⟩ := evaluate_ok hg h
  rw [hres]
  split
  · have := contribution_nonneg (K := K) (w := w) (phi := phi) hev.nonneg hspin hev.invertible id
    rw [Option.getD_some]
    linarith
  · exact le_refl _

open Example in
example (option : BoundaryOption) (lib : CoulombLibrary) (cache : MatrixCache group.channels.length) :
    ∃ r c, group.evaluate option constants lib 2 cache (fun _ => none) = .ok (r, c) ∧
      ∀ id, 0 ≤ (r id).getD 0 := by
  obtain ⟨⟨r, c⟩, h⟩ := (evaluates option lib cache (fun _ => none) (fun _ => none)).1
  exact ⟨r, c, h, C21_nonneg group_built spinFactor_nonneg h⟩

/-! ## C23 -/

/-- C23 for one spin group: the outcome of an evaluation, including failures, does not depend on what
earlier evaluations left in the matrices the group keeps. -/
theorem C23_history_independent (option : BoundaryOption) (K : Constants) (lib : CoulombLibrary)
    (g : SpinGroup) (E : ℝ) (cache₁ cache₂ : MatrixCache g.channels.length)
    (result : CrossSectionMap) (tresult : Str → Option ℂ) :
    g.evaluate option K lib E cache₁ result = g.evaluate option K lib E cache₂ result ∧
      g.evaluateTMatrix option K lib E cache₁ tresult
        = g.evaluateTMatrix option K lib E cache₂ tresult := by
  refine ⟨?_, ?_⟩
  · unfold SpinGroup.evaluate
    rw [prepare_cache cache₁ cache₂]
  · unfold SpinGroup.evaluateTMatrix
    simp only [rlmatrix_cache cache₁ cache₂]

end Verif
