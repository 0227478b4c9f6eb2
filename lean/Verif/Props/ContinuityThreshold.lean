import Verif.Props.Continuity
import Verif.Props.OneLevel

/-!
# Property C72: examples, and the thresholds at which cross sections jump
-/

namespace Verif

open Spec Filter Topology

/-- The claim without conditions on the channels that open at the energy. -/
def ContinuousAtThresholds (option : BoundaryOption) : Prop :=
  ∀ (K : Constants) (lib : CoulombLibrary) (g : SpinGroup) (E₀ : ℝ)
    (cache cache' : MatrixCache g.channels.length) (m : CrossSectionMap), g.Built →
    (∀ c ∈ g.channels, c.type ≠ .charged ∧ c.radii = Example.radii) →
    g.evaluate option K lib E₀ cache (fun _ => none) = .ok (m, cache') →
    ∀ ε > 0, ∃ δ > 0, ∀ E, |E - E₀| < δ → ∃ m' cache'',
      g.evaluate option K lib E cache (fun _ => none) = .ok (m', cache'') ∧ ∀ id, Close ε (m' id) (m id)

namespace ThresholdExample

open Example

/-- Neutrons on a target with an excited state that can be reached from energy 20 on, with a boundary
condition that is not the one of the threshold. -/
noncomputable def opening : Channel :=
  makeChannel .neutron pair excited excited.id (-10) ⟨0, 1 / 2, 1 / 2, 1⟩ radii 1

/-- A photon channel that opens at energy 20. -/
noncomputable def photon : Channel :=
  makeChannel .photon pair excited excited.id (-10) ⟨0, 1 / 2, 1 / 2, 1⟩ radii 0

/-- The channel that opens. -/
noncomputable def second : BoundaryOption → Channel
  | .constant => opening
  | .shiftFactor => photon

noncomputable def resonance : Resonance := ⟨19, [1, 1], 1⟩

noncomputable def table (option : BoundaryOption) : ResonanceTable :=
  ⟨[elastic, second option].map Channel.id, [resonance]⟩

theorem consistent (option : BoundaryOption) :
    Spec.ConsistentGroup [elastic, second option] (table option) := by
  refine ⟨by simp, ?_, ?_, ?_, ?_, rfl⟩
  · intro c hc d hd
    simp only [List.mem_cons, List.not_mem_nil, or_false] at hc hd
    rcases hc with rfl | rfl <;> rcases hd with rfl | rfl <;> cases option <;> rfl
  · have p1 : Physical ⟨0, 1 / 2, 1 / 2, 1⟩ := ⟨⟨1, by norm_num⟩, ⟨1, by norm_num⟩⟩
    have n1 : elastic.id ≠ (second option).id := fun h => by
      cases option <;> exact absurd ((C07_channelID_injective _ _ _ _ p1 p1).mp h).1 (by decide)
    simp [n1]
  · intro c hc d hd
    simp only [List.mem_cons, List.not_mem_nil, or_false] at hc hd
    rcases hc with rfl | rfl <;> rcases hd with rfl | rfl <;> cases option <;> exact ⟨rfl, rfl⟩
  · exact ⟨elastic, by simp, rfl⟩

noncomputable def group (option : BoundaryOption) : SpinGroup :=
  ⟨[elastic, second option], [elastic, second option].map Channel.reaction ++
    [.transition pair.id "capture".toList], determineIncidentChannels [elastic, second option],
    table option⟩

theorem group_built (option : BoundaryOption) : (group option).Built := by
  obtain ⟨g, hg⟩ := (C24_accepted _ _).mpr (consistent option)
  obtain ⟨h1, h2, -⟩ := C24_contents hg
  obtain ⟨h3, first, rest, h4, h5, -⟩ := (SpinGroup.Built.of_make hg).1.incident
  have : g = group option := by
    obtain ⟨c, r, i, t⟩ := g
    simp only at h1 h2 h3 h4 h5
    subst h1 h2 h3 h5
    have : first = elastic := by
      have := congrArg List.head? h4
      simp only [List.head?_cons, Option.some.injEq] at this
      exact this.symm
    subst this
    rfl
  rw [← this]
  exact (SpinGroup.Built.of_make hg).1

/-- Wave number of the incident neutrons. -/
noncomputable def k (E : ℝ) : ℝ := elastic.waveNumber constants E

theorem k_pos {E : ℝ} (hE : 0 < E) : 0 < k E :=
  waveNumber_pos (by norm_num [elastic, makeChannel, pair]) (by
    simp only [elastic, makeChannel, pair]
    linarith)

variable {lib : CoulombLibrary}

theorem elastic_values (E : ℝ) : elastic.penetrability constants lib E = .ok (k E) ∧
    elastic.shiftFactor constants lib E = .ok 0 ∧ elastic.coulombPhaseShift constants E = .ok 0 ∧
    elastic.phaseShift constants lib E = .ok (k E) := by
  have heta : elastic.eta constants E = .ok 0 := if_neg (by decide)
  have e : elastic.waveNumber constants E = k E := rfl
  simp only [Channel.penetrability, Channel.shiftFactor, Channel.phaseShift, Channel.coulombPhaseShift,
    heta, Bind.bind, Except.bind, e]
  generalize k E = x
  simp only [elastic, makeChannel, radii]
  simp [calculatePenetrability, calculateShiftFactor, calculatePhaseShift, calculateCoulombPhaseShift]

/-- Penetrability of the second channel. -/
noncomputable def p : BoundaryOption → ℝ → ℝ
  | .constant, E => opening.waveNumber constants E
  | .shiftFactor, _ => 1

theorem p_nonneg (option : BoundaryOption) (E : ℝ) : 0 ≤ p option E := by
  cases option
  · exact zero_le_one
  · exact waveNumber_nonneg _ _ _

theorem second_values (option : BoundaryOption) (E : ℝ) : ∃ phi,
    (second option).penetrability constants lib E = .ok (p option E) ∧
    (second option).shiftFactor constants lib E = .ok 0 ∧
    (second option).coulombPhaseShift constants E = .ok 0 ∧
    (second option).phaseShift constants lib E = .ok phi := by
  cases option with
  | constant =>
    refine ⟨p .constant E, ?_⟩
    have heta : opening.eta constants E = .ok 0 := if_neg (by decide)
    have e : opening.waveNumber constants E = p .constant E := rfl
    show opening.penetrability constants lib E = _ ∧ opening.shiftFactor constants lib E = _ ∧
      opening.coulombPhaseShift constants E = _ ∧ opening.phaseShift constants lib E = _
    simp only [Channel.penetrability, Channel.shiftFactor, Channel.phaseShift, Channel.coulombPhaseShift,
      heta, Bind.bind, Except.bind, e]
    generalize p .constant E = x
    simp only [opening, makeChannel, radii]
    simp [calculatePenetrability, calculateShiftFactor, calculatePhaseShift, calculateCoulombPhaseShift]
  | shiftFactor =>
    refine ⟨0, ?_⟩
    have heta : photon.eta constants E = .ok 0 := if_neg (by decide)
    show photon.penetrability constants lib E = _ ∧ photon.shiftFactor constants lib E = _ ∧
      photon.coulombPhaseShift constants E = _ ∧ photon.phaseShift constants lib E = _
    simp only [Channel.penetrability, Channel.shiftFactor, Channel.phaseShift, Channel.coulombPhaseShift,
      heta, Bind.bind, Except.bind]
    simp only [photon, makeChannel, radii]
    simp [calculatePenetrability, calculateShiftFactor, calculatePhaseShift, calculateCoulombPhaseShift, p]

theorem forall_two {α : Type*} {a b : α} {motive : Fin [a, b].length → Prop} (h0 : motive ⟨0, by simp⟩)
    (h1 : motive ⟨1, by simp⟩) : ∀ i, motive i := by
  rintro ⟨i, hi⟩
  match i, hi with
  | 0, _ => exact h0
  | 1, _ => exact h1

/-- The penetrabilities. -/
noncomputable def penetrabilities (option : BoundaryOption) (E : ℝ) :
    Fin (group option).channels.length → ℝ := fun i => if i.val = 0 then k E else p option E

/-- The group can be evaluated at all positive energies. -/
theorem evaluable (option : BoundaryOption) {E : ℝ} (hE : 0 < E) : ∃ phi,
    Spec.Evaluable option constants lib (group option).channels [resonance] E (penetrabilities option E)
      (fun _ => 0) (fun _ => 0) phi := by
  obtain ⟨e1, e2, e3, e4⟩ := elastic_values (lib := lib) E
  obtain ⟨phi, f1, f2, f3, f4⟩ := second_values (lib := lib) option E
  have hP : ∀ i, 0 ≤ penetrabilities option E i := forall_two (k_pos hE).le (p_nonneg option E)
  refine ⟨fun i => if i.val = 0 then k E else phi, forall_two e1 f1, fun _ => forall_two e2 f2,
    forall_two e3 f3, forall_two e4 f4, hP, ?_, ?_, ?_, ?_⟩
  · intro r hr
    rw [List.mem_singleton.mp hr]
    rfl
  · intro r hr
    rw [List.mem_singleton.mp hr]
    simp [resonance]
  · refine oneLevel_det (by simp [resonance]) ?_
    have : 0 ≤ ∑ c, Spec.partialWidth (group option).channels resonance E (penetrabilities option E) c :=
      Finset.sum_nonneg fun c _ => by
        have := hP c
        unfold Spec.partialWidth
        positivity
    unfold Spec.totalWidth
    simp only [resonance] at this ⊢
    linarith
  · exact ⟨elastic, rfl, (k_pos hE).ne'⟩

theorem sum_two {option : BoundaryOption} (f : Fin (group option).channels.length → ℝ) :
    ∑ c, f c = f ⟨0, by simp [group]⟩ + f ⟨1, by simp [group]⟩ := Fin.sum_univ_two f

/-- The identifier of capture. -/
def capture : ReactionID := .transition "n,T".toList "capture".toList

/-- The capture cross section of the group: below energy 20 it is that of a group without the second
channel. -/
theorem capture_value (option : BoundaryOption) {E : ℝ} (hE : 0 < E) (w phi : Fin (group option).channels.length → ℝ) :
    Spec.oneLevel option constants (group option).channels resonance E (penetrabilities option E)
        (fun _ => 0) w phi capture
      = if E < 20 then Real.pi / k E ^ 2 * (4 * k E / ((E - 19) ^ 2 + (1 + k E) ^ 2))
        else match option with
          | .constant => Real.pi / k E ^ 2 * (4 * k E / ((E - 20) ^ 2 + (1 + k E + p .constant E) ^ 2))
          | .shiftFactor => Real.pi / k E ^ 2 * (4 * k E / ((E - 19) ^ 2 + (2 + k E) ^ 2)) := by
  have hi0 : elastic.isIncident = true := rfl
  have hi1 : (second option).isIncident = false := by cases option <;> rfl
  have hr0 : elastic.reaction ≠ capture := by decide
  have hr1 : (second option).reaction ≠ capture := by cases option <;> decide
  have hcap : Spec.captureID (group option).channels = some capture := rfl
  have hfac : Spec.incidentFactor constants (group option).channels E = Real.pi / k E ^ 2 * 1 := by
    show Real.pi / k E ^ 2 * elastic.spinFactor = _
    congr 1
    norm_num [elastic, makeChannel, statisticalSpinFactor, pair, neutron, target]
  have ht : (second option).belowThreshold E ↔ E < 20 := by
    have : (second option).incident.massRatio * E + (second option).q = 1 / 2 * E + -10 := by
      cases option <;> rfl
    unfold Channel.belowThreshold
    rw [this]
    constructor <;> intro h <;> linarith
  have ha0 : Spec.amplitude (group option).channels E resonance ⟨0, by simp [group]⟩ ^ 2 = 1 := by
    have : ¬ elastic.belowThreshold E := by
      simp only [Channel.belowThreshold, elastic, makeChannel, pair]
      linarith
    unfold Spec.amplitude
    rw [if_neg (by exact this)]
    norm_num [resonance, Resonance.width]
  have ha1 : Spec.amplitude (group option).channels E resonance ⟨1, by simp [group]⟩ ^ 2
      = if E < 20 then 0 else 1 := by
    unfold Spec.amplitude
    by_cases h : E < 20
    · rw [if_pos (by exact ht.mpr h), if_pos h]
      norm_num
    · rw [if_neg (by exact fun h' => h (ht.mp h')), if_neg h]
      norm_num [resonance, Resonance.width]
  have hΓ : Spec.totalWidth (group option).channels resonance E (penetrabilities option E)
      = 2 * (1 + k E + p option E * if E < 20 then 0 else 1) := by
    unfold Spec.totalWidth Spec.partialWidth
    rw [sum_two, ha0, ha1]
    simp only [resonance, penetrabilities, if_true, if_neg one_ne_zero]
    ring
  have hc : Spec.shiftedEnergy (group option).channels resonance E option (fun _ => 0)
      = match option with
        | .constant => if E < 20 then 19 else 20
        | .shiftFactor => 19 := by
    cases option with
    | shiftFactor => rfl
    | constant =>
      unfold Spec.shiftedEnergy
      dsimp only
      rw [sum_two, ha0, ha1]
      show (19 : ℝ) - ((0 - 0) * 1 + (0 - 1) * _) = _
      split_ifs <;> norm_num
  have e0 : (group option).channels[(⟨0, by simp [group]⟩ : Fin (group option).channels.length)]
    = elastic := rfl
  have e1 : (group option).channels[(⟨1, by simp [group]⟩ : Fin (group option).channels.length)]
    = second option := rfl
  have hone : Spec.oneLevel option constants (group option).channels resonance E (penetrabilities option E)
        (fun _ => 0) w phi capture
      = Real.pi / k E ^ 2 * 1 * Spec.lorentzian (2 * k E) 2
        (Spec.totalWidth (group option).channels resonance E (penetrabilities option E))
        (Spec.shiftedEnergy (group option).channels resonance E option (fun _ => 0)) E := by
    unfold Spec.oneLevel
    dsimp only
    rw [sum_two, e0, e1, hi0, hi1, if_pos rfl, if_neg Bool.false_ne_true, sum_two, e0, e1, if_neg hr0, if_neg hr1,
      if_pos hcap, hfac]
    have : Spec.partialWidth (group option).channels resonance E (penetrabilities option E)
        ⟨0, by simp [group]⟩ = 2 * k E := by
      unfold Spec.partialWidth
      rw [ha0]
      simp [penetrabilities]
    rw [this]
    norm_num [resonance]
  rw [hone, hΓ, hc]
  unfold Spec.lorentzian
  by_cases h : E < 20
  · simp only [if_pos h]
    cases option <;> ring_nf
  · simp only [if_neg h]
    cases option <;> simp only [p] <;> ring_nf

end ThresholdExample

open ThresholdExample in
/-- C72 without its condition on thresholds: the cross sections jump where a photon channel opens, and,
when the boundary conditions of the evaluation are used, where a neutron channel opens whose boundary
condition is not its shift factor at threshold. -/
theorem C72_threshold_jumps (option : BoundaryOption) : ¬ ContinuousAtThresholds option := by
  intro hclaim
  let lib : CoulombLibrary := fun _ _ _ => .error .throws
  have hb := ThresholdExample.group_built option
  have hval : ∀ E, 0 < E → ∀ cache, ∃ m cache', (group option).evaluate option Example.constants lib E cache
      (fun _ => none) = .ok (m, cache') ∧ ∃ phi, m capture = some (Spec.oneLevel option Example.constants
        (group option).channels resonance E (penetrabilities option E) (fun _ => 0) (fun _ => 0) phi
          capture) := by
    intro E hE cache
    obtain ⟨phi, hev⟩ := evaluable (lib := lib) option hE
    obtain ⟨⟨m, cache'⟩, hm⟩ := evaluate_ok_of hb hev cache (fun _ => none)
    refine ⟨m, cache', hm, phi, ?_⟩
    obtain ⟨P, S, w, phi', hev', hres⟩ := evaluate_ok hb hm
    rw [hres, if_pos (by simp [group, capture, Example.pair]), Evaluable_contribution hev' hev]
    change some (0 + Spec.contribution option Example.constants (group option).channels [resonance] E _ _ _ _ _)
      = _
    rw [zero_add, contribution_oneLevel (hev.noPole _ (List.mem_singleton.mpr rfl)) hev.nonneg hev.invertible]
  let f : ℝ → ℝ := fun E => Real.pi / k E ^ 2 * (4 * k E / ((E - 19) ^ 2 + (1 + k E) ^ 2))
  have hk : ContinuousAt k 20 := (waveNumber_continuous _ _).continuousAt
  have hkp := k_pos (E := 20) (by norm_num)
  have hf : ContinuousAt f 20 := by
    refine ContinuousAt.mul (continuousAt_const.div (hk.pow 2) (by positivity))
      ((continuousAt_const.mul hk).div (by fun_prop) (by positivity))
  obtain ⟨m, cache', hm, phi, hcap⟩ := hval 20 (by norm_num) ⟨0, 0, 0⟩
  have hne : ∀ v, m capture = some v → v ≠ f 20 := by
    intro v hv
    rw [hcap, capture_value _ (by norm_num), if_neg (lt_irrefl _)] at hv
    rw [← Option.some.inj hv]
    have hp : p .constant 20 = 0 := by
      simp [p, Channel.waveNumber, opening, makeChannel, Example.pair]
      norm_num
    have hpi := Real.pi_pos
    have hfac : Real.pi / k 20 ^ 2 ≠ 0 := by positivity
    intro heq
    cases option with
    | constant =>
      have := mul_left_cancel₀ hfac heq
      rw [hp, div_eq_div_iff (by positivity) (by positivity)] at this
      nlinarith
    | shiftFactor =>
      have := mul_left_cancel₀ hfac heq
      rw [div_eq_div_iff (by positivity) (by positivity)] at this
      nlinarith
  obtain ⟨v, hv⟩ : ∃ v, m capture = some v := ⟨_, hcap⟩
  have hpos : 0 < |v - f 20| := abs_pos.mpr (sub_ne_zero.mpr (hne v hv))
  obtain ⟨δ, hδ, hclose⟩ := hclaim _ _ _ _ _ _ _ hb (by
    intro c hc
    simp only [group, List.mem_cons, List.not_mem_nil, or_false] at hc
    rcases hc with rfl | rfl
    · exact ⟨by decide, rfl⟩
    · cases option
      · exact ⟨by decide, rfl⟩
      · exact ⟨by decide, rfl⟩) hm (|v - f 20| / 2) (by positivity)
  obtain ⟨δ', hδ', hf'⟩ := Metric.continuousAt_iff.mp hf (|v - f 20| / 2) (by positivity)
  let E : ℝ := 20 - min (min δ δ') 1 / 2
  have hd : 0 < min (min δ δ') 1 := by positivity
  have hd1 : min (min δ δ') 1 ≤ 1 := min_le_right _ _
  have hd2 : min (min δ δ') 1 ≤ δ := (min_le_left _ _).trans (min_le_left _ _)
  have hd3 : min (min δ δ') 1 ≤ δ' := (min_le_left _ _).trans (min_le_right _ _)
  have hEd : |E - 20| = min (min δ δ') 1 / 2 := by
    show |20 - min (min δ δ') 1 / 2 - 20| = _
    rw [show 20 - min (min δ δ') 1 / 2 - 20 = -(min (min δ δ') 1 / 2) by ring, abs_neg, abs_of_pos (by positivity)]
  have hE20 : E < 20 := by show 20 - min (min δ δ') 1 / 2 < 20; linarith
  have hE0 : 0 < E := by show 0 < 20 - min (min δ δ') 1 / 2; linarith
  obtain ⟨m', cache'', hm', hcl⟩ := hclose E (by rw [hEd]; linarith)
  obtain ⟨m'', _, hm'', phi', hcap'⟩ := hval E hE0 ⟨0, 0, 0⟩
  rw [hm''] at hm'
  obtain ⟨rfl, -⟩ := Prod.mk.inj (Except.ok.inj hm')
  have h1 := hcl capture
  rw [hcap', hv, capture_value _ hE0, if_pos hE20] at h1
  have h2 := hf' (x := E) (by rw [Real.dist_eq, hEd]; linarith)
  rw [Real.dist_eq] at h2
  have h3 : |f E - v| < |v - f 20| / 2 := h1
  have h4 := abs_sub_abs_le_abs_sub v (f 20)
  have h5 := abs_sub_le v (f E) (f 20)
  rw [abs_sub_comm v (f E)] at h5
  linarith

/-! ### Examples -/

namespace ThresholdExample

open Example

theorem radius_continuous {E : ℝ} : ContinuousRadius (fun _ => (.ok 1 : Outcome ℝ)) E :=
  ⟨fun _ => 1, continuousAt_const, Eventually.of_forall fun _ => rfl⟩

/-- The channels of the example are regular everywhere except where the fission channel opens, also at the
threshold of the inelastic channel. -/
theorem regular {option : BoundaryOption} {E : ℝ} (hE : E ≠ 0) :
    ∀ c ∈ Example.group.channels, Regular option c E := by
  have nn : ∀ᶠ E in 𝓝 E, ∀ a, (.ok 1 : Outcome ℝ) = .ok a → 0 ≤ a :=
    Eventually.of_forall fun _ a ha => (Except.ok.inj ha) ▸ zero_le_one
  intro c hc
  have hc' : c ∈ channels := hc
  simp only [channels, List.mem_cons, List.not_mem_nil, or_false] at hc'
  rcases hc' with rfl | rfl | rfl
  · refine ⟨by decide, radius_continuous, fun _ => nn, radius_continuous, radius_continuous, fun h => ?_⟩
    simp only [AtThreshold, elastic, makeChannel, pair] at h
    exact absurd (by linarith) hE
  · exact ⟨by decide, radius_continuous, fun _ => nn, radius_continuous, radius_continuous,
      fun _ => ⟨rfl, fun _ => by simp [inelastic, makeChannel]⟩⟩
  · refine ⟨by decide, radius_continuous, fun _ => nn, radius_continuous, radius_continuous, fun h => ?_⟩
    simp only [AtThreshold, fission, makeChannel, pair] at h
    exact absurd (by linarith) hE

end ThresholdExample

open Example in
/-- C72 applies to the example. -/
example (option : BoundaryOption) (lib : CoulombLibrary) (cache : MatrixCache group.channels.length) :
    ∃ m c, group.evaluate option constants lib 2 cache (fun _ => none) = .ok (m, c) ∧
      ∀ ε > 0, ∃ δ > 0, ∀ E, |E - 2| < δ → ∀ cache, ∃ m' c',
        group.evaluate option constants lib E cache (fun _ => none) = .ok (m', c') ∧
          ∀ id, Close ε (m' id) (m id) := by
  obtain ⟨⟨m, c⟩, h⟩ := (evaluates option lib cache (fun _ => none) (fun _ => none)).1
  exact ⟨m, c, h, fun ε hε => C72_spin_group group_built (ThresholdExample.regular two_ne_zero) h hε⟩

end Verif
