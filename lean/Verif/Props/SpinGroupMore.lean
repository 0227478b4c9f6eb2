import Verif.Props.SpinGroup
import Mathlib.Analysis.Real.Pi.Bounds

/-!
# Properties C22 (one spin group), C52 and C53
-/

namespace Verif

open Complex Matrix

section

variable {option : BoundaryOption} {K : Constants} {lib : CoulombLibrary} {g : SpinGroup} {E : ℝ}
  {cache cache' : MatrixCache g.channels.length} {result result' : CrossSectionMap}

/-- C53: evaluation computes the documented Reich-Moore cross sections. Whenever it returns, the
channel functions have values for which the formulas of `Spec` are defined, every reaction of the
group has got its contribution added, and all other entries are as before. -/
theorem C53_documented_formulas (hg : g.Built)
    (h : g.evaluate option K lib E cache result = .ok (result', cache')) :
    ∃ P S w phi, Spec.Evaluable option K lib g.channels g.table.resonances E P S w phi ∧
      ∀ id, result' id =
        if id ∈ g.channels.map Channel.reaction ∨ Spec.captureID g.channels = some id then
          some ((result id).getD 0
            + Spec.contribution option K g.channels g.table.resonances E P S w phi id)
        else result id := by
  obtain ⟨P, S, w, phi, hev, hres⟩ := evaluate_ok hg h
  refine ⟨P, S, w, phi, hev, fun id => ?_⟩
  rw [hres]
  obtain ⟨-, first, rest, h2, h3, -⟩ := hg.incident
  have : id ∈ g.reactions ↔
      id ∈ g.channels.map Channel.reaction ∨ Spec.captureID g.channels = some id := by
    rw [h3, List.mem_append, List.mem_singleton, captureID_eq h2, Option.some.injEq, eq_comm (a := id)]
  simp only [this]

example (option : BoundaryOption) (lib : CoulombLibrary)
    (cache : MatrixCache Example.group.channels.length) :
    ∃ r c, Example.group.evaluate option Example.constants lib 2 cache (fun _ => none) = .ok (r, c)
      ∧ (r (.elastic "n,T".toList)).isSome := by
  obtain ⟨⟨r, c⟩, h⟩ := (Example.evaluates option lib cache (fun _ => none) (fun _ => none)).1
  refine ⟨r, c, h, ?_⟩
  obtain ⟨P, S, w, phi, -, hres⟩ := C53_documented_formulas Example.group_built h
  rw [hres, if_pos (Or.inl _)]
  · rfl
  · exact List.mem_map.mpr ⟨Example.elastic, by simp [Example.group, Example.channels], rfl⟩

/-- C22 for one spin group: the amount added to each reaction does not depend on what the map
contained; reactions that are not of this group are untouched. -/
theorem C22_accumulates (hg : g.Built)
    (h : g.evaluate option K lib E cache result = .ok (result', cache'))
    {cache₂ cache₂' : MatrixCache g.channels.length} {other other' : CrossSectionMap}
    (h₂ : g.evaluate option K lib E cache₂ other = .ok (other', cache₂')) (id : ReactionID) :
    (id ∈ g.reactions →
      (result' id).isSome ∧
      (result' id).getD 0 - (result id).getD 0 = (other' id).getD 0 - (other id).getD 0) ∧
    (id ∉ g.reactions → result' id = result id) := by
  obtain ⟨P, S, w, phi, hev, hres⟩ := evaluate_ok hg h
  obtain ⟨P', S', w', phi', hev', hres'⟩ := evaluate_ok hg h₂
  refine ⟨fun hid => ?_, fun hid => ?_⟩
  · rw [hres, hres', if_pos hid, if_pos hid, Evaluable_contribution hev hev']
    simp
  · rw [hres, if_neg hid]

/-- C22: a second evaluation into the same map doubles what the first one added. -/
theorem C22_twice (hg : g.Built)
    (h : g.evaluate option K lib E cache result = .ok (result', cache'))
    {cache'' : MatrixCache g.channels.length} {result'' : CrossSectionMap}
    (h₂ : g.evaluate option K lib E cache' result' = .ok (result'', cache'')) (id : ReactionID) :
    (result'' id).getD 0 - (result id).getD 0
      = 2 * ((result' id).getD 0 - (result id).getD 0) := by
  by_cases hid : id ∈ g.reactions
  · have := ((C22_accumulates hg h h₂ id).1 hid).2
    linarith
  · rw [(C22_accumulates hg h₂ h₂ id).2 hid, (C22_accumulates hg h h id).2 hid]
    ring

open Example in
example (option : BoundaryOption) (lib : CoulombLibrary) (cache : MatrixCache group.channels.length) :
    ∃ r c r₂ c₂, group.evaluate option constants lib 2 cache (fun _ => none) = .ok (r, c) ∧
      group.evaluate option constants lib 2 c r = .ok (r₂, c₂) ∧
      ∀ id, (r₂ id).getD 0 = 2 * (r id).getD 0 := by
  obtain ⟨⟨r, c⟩, h⟩ := (evaluates option lib cache (fun _ => none) (fun _ => none)).1
  obtain ⟨⟨r₂, c₂⟩, h₂⟩ := (evaluates option lib c r (fun _ => none)).1
  exact ⟨r, c, r₂, c₂, h, h₂, fun id => by simpa using C22_twice group_built h h₂ id⟩

/-- C22 for the T-matrix: entries are overwritten, so evaluating twice gives the same map. -/
theorem C22_tMatrix_idempotent (hg : g.Built) (harrow : ∀ c ∈ g.channels, ¬ ContainsArrow c.id)
    {tresult tresult' tresult'' : Str → Option ℂ} {cache'' : MatrixCache g.channels.length}
    (h : g.evaluateTMatrix option K lib E cache tresult = .ok (tresult', cache'))
    (h₂ : g.evaluateTMatrix option K lib E cache' tresult' = .ok (tresult'', cache'')) :
    tresult'' = tresult' := by
  obtain ⟨P, S, hP, hS, -, -, -, hT, hother⟩ := evaluateTMatrix_ok hg harrow h
  obtain ⟨P', S', hP', hS', -, -, -, hT', hother'⟩ := evaluateTMatrix_ok hg harrow h₂
  have hPP : P' = P := by
    funext i
    simpa using (hP' i).symm.trans (hP i)
  subst hPP
  have hTT : Spec.tMatrix option g.channels g.table.resonances E P' S'
      = Spec.tMatrix option g.channels g.table.resonances E P' S := by
    cases option with
    | shiftFactor => rfl
    | constant =>
      have : S' = S := by
        funext i
        simpa using (hS' rfl i).symm.trans (hS rfl i)
      rw [this]
  funext key
  by_cases hk : ∃ c c' : Fin g.channels.length, key = tMatrixKey g.channels[c].id g.channels[c'].id
  · obtain ⟨c, c', rfl⟩ := hk
    rw [hT, hT', hTT]
  · apply hother'
    intro c hc c' hc' he
    obtain ⟨i, hi, rfl⟩ := List.getElem_of_mem hc
    obtain ⟨j, hj, rfl⟩ := List.getElem_of_mem hc'
    exact hk ⟨⟨i, hi⟩, ⟨j, hj⟩, he⟩

open Example in
example (option : BoundaryOption) (lib : CoulombLibrary) (cache : MatrixCache group.channels.length) :
    ∃ t c t₂ c₂, group.evaluateTMatrix option constants lib 2 cache (fun _ => none) = .ok (t, c) ∧
      group.evaluateTMatrix option constants lib 2 c t = .ok (t₂, c₂) ∧ t₂ = t := by
  obtain ⟨⟨t, c⟩, h⟩ := (evaluates option lib cache (fun _ => none) (fun _ => none)).2
  obtain ⟨⟨t₂, c₂⟩, h₂⟩ := (evaluates option lib c (fun _ => none) t).2
  exact ⟨t, c, t₂, c₂, h, h₂, C22_tMatrix_idempotent group_built noArrow h h₂⟩

/-! ## C52 -/

theorem rMatrix_zero {channels : List Channel} {rs : List Resonance} {E : ℝ}
    (h : ∀ r ∈ rs, ∀ x ∈ r.widths, x = 0) : Spec.rMatrix channels rs E = 0 := by
  ext i j
  simp only [Spec.rMatrix, Matrix.of_apply, Matrix.zero_apply]
  apply List.sum_eq_zero
  intro x hx
  obtain ⟨r, hr, rfl⟩ := List.mem_map.mp hx
  have : ∀ c : ℕ, r.width c = 0 := by
    intro c
    unfold Resonance.width
    rw [List.getD_eq_getElem?_getD]
    cases hc : r.widths[c]? with
    | none => rfl
    | some y => exact h r hr y (List.mem_of_getElem? hc)
  have h0 : Spec.amplitude channels E r i = 0 := by
    unfold Spec.amplitude
    split
    · rfl
    · exact this i
  rw [h0]
  simp

/-- C52, what the code does: without resonances and hard-sphere phase, each incident channel with
Coulomb phase `w` adds `π/k² g |1 - exp(i w)|²` to the elastic cross section. -/
theorem C52_exact_extent (hg : g.Built)
    (h : g.evaluate option K lib E cache result = .ok (result', cache'))
    (hreaction : ∀ c ∈ g.channels, c.reaction = makeReactionID c.incident.id c.pair.id)
    (hwidths : ∀ r ∈ g.table.resonances, ∀ x ∈ r.widths, x = 0)
    (hphase : ∀ c ∈ g.channels, c.phaseShift K lib E = .ok 0)
    (incident : PairID) (hinc : ∀ c ∈ g.channels, c.incident.id = incident) :
    ∃ w : Fin g.channels.length → ℝ,
      (∀ i : Fin g.channels.length, g.channels[i].coulombPhaseShift K E = .ok (w i)) ∧
      (result' (.elastic incident)).getD 0 = (result (.elastic incident)).getD 0 +
        ∑ c : Fin g.channels.length, if g.channels[c].isIncident then
          Spec.incidentFactor K g.channels E * normSq (1 - exp (I * w c)) else 0 := by
  obtain ⟨P, S, w, phi, hev, hres⟩ := evaluate_ok hg h
  refine ⟨w, hev.coulomb, ?_⟩
  have hphi : ∀ i, phi i = 0 := by
    intro i
    have := (hev.phase i).symm.trans (hphase _ (List.getElem_mem _))
    simpa using this
  obtain ⟨-, first, rest, h2, h3, -⟩ := hg.incident
  have hcap := captureID_eq h2
  have hT : Spec.tMatrix option g.channels g.table.resonances E P S = 0 := by
    ext i j
    simp [Spec.tMatrix, rMatrix_zero hwidths]
  have hreac : ∀ c : Fin g.channels.length,
      g.channels[c].reaction = .elastic incident ↔ g.channels[c].isIncident := by
    intro c
    rw [show g.channels[c].reaction = _ from hreaction g.channels[c] (List.getElem_mem _)]
    have hi := hinc g.channels[c] (List.getElem_mem _)
    unfold makeReactionID Channel.isIncident
    rw [hi, beq_iff_eq]
    by_cases hp : incident = g.channels[c].pair.id
    · rw [if_pos hp]
      exact ⟨fun _ => hp.symm ▸ rfl, fun _ => rfl⟩
    · rw [if_neg hp]
      exact ⟨fun h => (by cases h), fun h => absurd h.symm hp⟩
  have hsum : Spec.contribution option K g.channels g.table.resonances E P S w phi
        (.elastic incident)
      = ∑ c : Fin g.channels.length, if g.channels[c].isIncident then
          Spec.incidentFactor K g.channels E * normSq (1 - exp (I * w c)) else 0 := by
    unfold Spec.contribution
    refine Finset.sum_congr rfl fun c _ => ?_
    by_cases hc : g.channels[c].isIncident
    · rw [if_pos hc, if_pos hc, hcap]
      simp only [Option.some.injEq, reduceCtorEq, if_false, add_zero]
      rw [Finset.sum_eq_single c]
      · rw [if_pos ((hreac c).mpr hc)]
        congr 1
        unfold Spec.partialCrossSection Spec.collision
        rw [if_pos rfl, if_pos rfl, hT, hphi c]
        simp only [ofReal_zero, sub_zero, Matrix.zero_apply, mul_zero, add_zero, mul_one]
        rw [show exp (I * w c) - exp (I * w c) * exp (I * w c)
          = exp (I * w c) * (1 - exp (I * w c)) by ring, normSq_mul, normSq_exp_I_mul, one_mul]
      · intro c' _ hne
        split
        · unfold Spec.partialCrossSection Spec.collision
          rw [if_neg (Ne.symm hne), if_neg (Ne.symm hne), hT]
          simp
        · rfl
      · intro hcu
        exact absurd (Finset.mem_univ c) hcu
    · rw [if_neg hc, if_neg hc]
  have hmem : ReactionID.elastic incident ∈ g.reactions := by
    obtain ⟨c, hc, hi⟩ := ((C24_accepted _ _).mp ⟨g, hg⟩).hasIncident
    obtain ⟨i, hi', rfl⟩ := List.getElem_of_mem hc
    rw [h3, List.mem_append]
    left
    refine List.mem_map.mpr ⟨_, hc, ?_⟩
    rw [hreaction _ hc]
    unfold makeReactionID
    rw [hi, if_pos rfl, hinc _ hc]
  rw [hres, if_pos hmem, Option.getD_some, hsum]

end

/-- The statement of C52 as written. -/
def C52_claim : Prop :=
  ∀ (option : BoundaryOption) (K : Constants) (lib : CoulombLibrary) (g : SpinGroup) (E : ℝ)
    (cache cache' : MatrixCache g.channels.length) (result result' : CrossSectionMap)
    (incident : PairID), g.Built →
    g.evaluate option K lib E cache result = .ok (result', cache') →
    (∀ c ∈ g.channels, c.reaction = makeReactionID c.incident.id c.pair.id) →
    (∀ r ∈ g.table.resonances, ∀ x ∈ r.widths, x = 0) →
    (∀ c ∈ g.channels, c.phaseShift K lib E = .ok 0) →
    (∀ c ∈ g.channels, c.incident.id = incident) →
    (result' (.elastic incident)).getD 0 = (result (.elastic incident)).getD 0

/-- C52 holds when the Coulomb phases vanish too (neutral channels and s-waves); missing are charged
channels with `l ≥ 1`. -/
theorem C52_partial {option : BoundaryOption} {K : Constants} {lib : CoulombLibrary} {g : SpinGroup}
    {E : ℝ} {cache cache' : MatrixCache g.channels.length} {result result' : CrossSectionMap}
    (hg : g.Built) (h : g.evaluate option K lib E cache result = .ok (result', cache'))
    (hreaction : ∀ c ∈ g.channels, c.reaction = makeReactionID c.incident.id c.pair.id)
    (hwidths : ∀ r ∈ g.table.resonances, ∀ x ∈ r.widths, x = 0)
    (hphase : ∀ c ∈ g.channels, c.phaseShift K lib E = .ok 0)
    (incident : PairID) (hinc : ∀ c ∈ g.channels, c.incident.id = incident)
    (hneutral : ∀ c ∈ g.channels, c.type ≠ .charged ∨ c.numbers.l = 0) :
    (result' (.elastic incident)).getD 0 = (result (.elastic incident)).getD 0 := by
  obtain ⟨w, hw, hres⟩ := C52_exact_extent hg h hreaction hwidths hphase incident hinc
  have h0 : ∀ i, w i = 0 := by
    intro i
    have h1 := hw i
    have h2 := hneutral g.channels[i] (List.getElem_mem _)
    unfold Channel.coulombPhaseShift at h1
    cases he : Channel.eta K g.channels[i] E with
    | error e => rw [he] at h1; cases h1
    | ok η =>
      rw [he] at h1
      simp only [bind, Except.bind] at h1
      rcases h2 with h2 | h2
      · cases ht : g.channels[i].type with
        | charged => exact absurd ht h2
        | neutron => rw [ht] at h1; exact (Except.ok.inj h1).symm
        | photon => rw [ht] at h1; exact (Except.ok.inj h1).symm
        | fission => rw [ht] at h1; exact (Except.ok.inj h1).symm
      · rw [h2] at h1
        cases ht : g.channels[i].type with
        | charged =>
          rw [ht] at h1
          simp only [calculateCoulombPhaseShift, List.range_zero, List.not_mem_nil, false_and,
            exists_false, if_false, List.map_nil, List.sum_nil, Except.ok.injEq] at h1
          exact h1.symm
        | neutron => rw [ht] at h1; exact (Except.ok.inj h1).symm
        | photon => rw [ht] at h1; exact (Except.ok.inj h1).symm
        | fission => rw [ht] at h1; exact (Except.ok.inj h1).symm
  rw [hres]
  simp [h0]

namespace FreeExample

open Example

/-- A neutron s-wave with a vanishing radius for the phase shift, and no resonances. -/
noncomputable def free : Channel :=
  makeChannel .neutron pair pair pair.id 0 ⟨0, 1 / 2, 1 / 2, 1⟩
    ⟨fun _ => .ok 1, fun _ => .ok 1, fun _ => .ok 0⟩ 0

noncomputable def group : SpinGroup := ⟨[free], [free.reaction,
  .transition pair.id "capture".toList], determineIncidentChannels [free], ⟨[free.id], []⟩⟩

theorem built : group.Built := by
  unfold SpinGroup.Built
  change makeSpinGroup [free] ⟨[free.id], []⟩ = .ok group
  rw [makeSpinGroup_cons, (verifyChannels_ok _).mpr, (verifyResonanceChannels_ok _ _).mpr rfl]
  · have hi : (determineIncidentChannels [free]).length ≠ 0 := by
      rw [determineIncidentChannels_eq_nil]
      exact ⟨free, by simp, rfl⟩
    rw [verifyIncidentChannels, if_neg hi]
    rfl
  · simp

example (option : BoundaryOption) (lib : CoulombLibrary) (cache : MatrixCache group.channels.length) :
    ∃ r c, group.evaluate option constants lib 2 cache (fun _ => none) = .ok (r, c) ∧
      (r (.elastic pair.id)).getD 0 = 0 := by
  have hmem : ∀ c ∈ group.channels, c = free := by
    intro c hc
    have : c ∈ [free] := hc
    simpa using this
  have hn : ∀ c ∈ group.channels, NeutralAt 2 c := by
    intro c hc
    rw [hmem c hc]
    exact ⟨by decide, fun _ => by decide, fun _ => by norm_num [free, makeChannel, pair],
      by norm_num [free, makeChannel, pair], ⟨1, one_pos, rfl⟩, ⟨1, rfl⟩, ⟨0, rfl⟩⟩
  obtain ⟨⟨r, c⟩, h⟩ := (C19_neutral_channels (option := option) (lib := lib) (K := constants) built hn
    (fun r hr => by cases hr) (fun r hr => by cases hr) cache (fun _ => none) (fun _ => none)).1
  refine ⟨r, c, h, C52_partial built h ?_ (fun r hr => by cases hr) ?_ _ ?_ ?_⟩
  · intro c hc
    rw [hmem c hc]
    rfl
  · intro c hc
    rw [hmem c hc]
    have ht : free.type = .neutron := rfl
    have hl : free.numbers.l = 0 := rfl
    have hr : free.radii.phaseShift 2 = .ok 0 := rfl
    have he : free.eta constants 2 = .ok 0 := rfl
    unfold Channel.phaseShift
    rw [he, hr, ht, hl]
    simp [bind, Except.bind, calculatePhaseShift]
  · intro c hc
    rw [hmem c hc]
    rfl
  · intro c hc
    rw [hmem c hc]
    exact Or.inr rfl

end FreeExample

namespace CoulombExample

/-- Constants that make the Sommerfeld parameter below `π/4`. -/
noncomputable def constants : Constants := ⟨1, 1 / (2 * Real.pi ^ 2), one_pos, by positivity⟩

def proton : Particle := ⟨"p".toList, 1, 1, 1 / 2, 1⟩
def target : Particle := ⟨"T".toList, 1, 1, 0, 1⟩
noncomputable def pair : ParticlePair := ⟨proton, target, "p,T".toList, 1 / 2, 1 / 2⟩
noncomputable def radii : ChannelRadii := ⟨fun _ => .ok 1, fun _ => .ok 1, fun _ => .ok 1⟩
noncomputable def elastic : Channel :=
  makeChannel .charged pair pair pair.id 0 ⟨1, 1 / 2, 1 / 2, -1⟩ radii 0
def lib : CoulombLibrary := fun _ _ _ => .ok ⟨1, 0, 0, 0⟩

noncomputable def group : SpinGroup := ⟨[elastic], [elastic.reaction,
  .transition pair.id "capture".toList], determineIncidentChannels [elastic], ⟨[elastic.id], []⟩⟩

theorem built : group.Built := by
  unfold SpinGroup.Built
  change makeSpinGroup [elastic] ⟨[elastic.id], []⟩ = .ok group
  rw [makeSpinGroup_cons, (verifyChannels_ok _).mpr, (verifyResonanceChannels_ok _ _).mpr rfl]
  · have hi : (determineIncidentChannels [elastic]).length ≠ 0 := by
      rw [determineIncidentChannels_eq_nil]
      exact ⟨elastic, by simp, rfl⟩
    rw [verifyIncidentChannels, if_neg hi]
    rfl
  · simp

theorem waveNumber : elastic.waveNumber constants 2 = 1 := by
  simp [Channel.waveNumber, elastic, makeChannel, pair, constants]

theorem eta : elastic.eta constants 2 = .ok (Real.pi / 4) := by
  have hpi := Real.pi_ne_zero
  unfold Channel.eta
  rw [if_pos (by rfl)]
  unfold Channel.sommerfeldParameter
  rw [waveNumber]
  have h1 : elastic.pair.particle.charge * elastic.pair.residual.charge = 1 := by
    simp [elastic, makeChannel, pair, proton, target]
  have h2 : elastic.pair.reducedMass = 1 / 2 := rfl
  simp only [h1, h2]
  rw [if_neg one_ne_zero, if_neg (by norm_num)]
  congr 1
  simp only [constants]
  field_simp

theorem values : elastic.penetrability constants lib 2 = .ok 1 ∧
    elastic.shiftFactor constants lib 2 = .ok 0 ∧
    elastic.coulombPhaseShift constants 2 = .ok 1 ∧
    elastic.phaseShift constants lib 2 = .ok 0 := by
  have hr : elastic.radii = radii := rfl
  have ht : elastic.type = .charged := rfl
  have hl : elastic.numbers.l = 1 := rfl
  unfold Channel.penetrability Channel.shiftFactor Channel.coulombPhaseShift Channel.phaseShift
  rw [eta, waveNumber, hr, ht, hl]
  simp [bind, Except.bind, radii, calculatePenetrability, calculateShiftFactor,
    calculateCoulombPhaseShift, calculatePhaseShift, lib, Real.tan_pi_div_four,
    Real.cot_eq_cos_div_sin, pure, Except.pure]

end CoulombExample

open CoulombExample in
/-- C52 fails: a proton in a p-wave with Sommerfeld parameter `π/4`, no resonances and no hard-sphere
phase shift gets an elastic cross section. -/
theorem C52_disproved : ¬ C52_claim := by
  intro hclaim
  have hch : ∀ i : Fin group.channels.length, group.channels[i] = elastic := by
    intro i
    obtain ⟨i, hi⟩ := i
    have h0 : i < 1 := hi
    interval_cases i
    rfl
  have hmem : ∀ c ∈ group.channels, c = elastic := by
    intro c hc
    have : c ∈ [elastic] := hc
    simpa using this
  have hok := (C19_evaluation_succeeds (option := .shiftFactor) (K := constants) (lib := lib)
    (E := 2) built (P := fun _ => 1) (S := fun _ => 0) (w := fun _ => 1) (phi := fun _ => 0)
    (fun i => by rw [hch i]; exact values.1) (fun h => by cases h)
    (fun i => by rw [hch i]; exact values.2.2.1) (fun i => by rw [hch i]; exact values.2.2.2)
    (fun _ => zero_le_one) (fun h => by cases h) (fun r hr => by cases hr) (fun r hr => by cases hr)
    (fun c hc _ => by rw [hmem c hc, waveNumber]; exact one_ne_zero)
    (MatrixCache.initial 0 0) (fun _ => none) (fun _ => none)).1
  obtain ⟨⟨r, c⟩, hr⟩ := hok
  have hreac : ∀ c ∈ group.channels, c.reaction = makeReactionID c.incident.id c.pair.id := by
    intro c hc
    rw [hmem c hc]
    rfl
  have hw : ∀ r ∈ group.table.resonances, ∀ x ∈ r.widths, x = 0 := by
    intro r hr
    cases hr
  have hphase : ∀ c ∈ group.channels, c.phaseShift constants lib 2 = .ok 0 := by
    intro c hc
    rw [hmem c hc]
    exact values.2.2.2
  have hinc : ∀ c ∈ group.channels, c.incident.id = pair.id := by
    intro c hc
    rw [hmem c hc]
    rfl
  have h1 := hclaim .shiftFactor constants lib group 2 _ c _ r pair.id built hr hreac hw hphase hinc
  obtain ⟨w, hwv, h2⟩ := C52_exact_extent built hr hreac hw hphase pair.id hinc
  rw [h1] at h2
  have hw1 : ∀ i, w i = 1 := by
    intro i
    have h5 := hwv i
    rw [hch i, values.2.2.1] at h5
    exact (Except.ok.inj h5).symm
  have hfac : Spec.incidentFactor constants group.channels 2 ≠ 0 := by
    have hfind : group.channels.find? Channel.isIncident = some elastic := by
      have : elastic.isIncident := by decide
      simp [group, this]
    unfold Spec.incidentFactor
    rw [hfind]
    simp only [waveNumber]
    have : 0 < elastic.spinFactor :=
      spinFactor_pos _ _ _ _ _ _ _ _ (by norm_num) (by norm_num [pair, proton])
        (by norm_num [pair, target])
    have hs : (elastic.spinFactor : ℝ) ≠ 0 := by exact_mod_cast this.ne'
    have hpi := Real.pi_ne_zero
    simp [hs, hpi]
  have hsum : (∑ c : Fin group.channels.length, if group.channels[c].isIncident then
      Spec.incidentFactor constants group.channels 2 * normSq (1 - exp (I * w c)) else 0)
      = Spec.incidentFactor constants group.channels 2 * normSq (1 - exp (I * (1 : ℝ))) := by
    have hb : elastic.isIncident := by decide
    have hall : ∀ c : Fin group.channels.length, (if group.channels[c].isIncident then
        Spec.incidentFactor constants group.channels 2 * normSq (1 - exp (I * w c)) else 0)
        = Spec.incidentFactor constants group.channels 2 * normSq (1 - exp (I * (1 : ℝ))) := by
      intro c
      rw [hch c, if_pos hb, hw1]
    rw [Finset.sum_congr rfl fun c _ => hall c]
    have : Fintype.card (Fin group.channels.length) = 1 := rfl
    simp [this]
  rw [hsum] at h2
  have h3 : normSq (1 - exp (I * (1 : ℝ))) = 0 := by
    have : Spec.incidentFactor constants group.channels 2 * normSq (1 - exp (I * (1 : ℝ))) = 0 := by
      linarith
    exact (mul_eq_zero.mp this).resolve_left hfac
  rw [normSq_eq_zero, sub_eq_zero, eq_comm, exp_eq_one_iff] at h3
  obtain ⟨n, hn⟩ := h3
  have h4 : (1 : ℝ) = n * (2 * Real.pi) := by
    have := congrArg Complex.im hn
    simp at this
    linarith
  have hpi := Real.pi_gt_three
  rcases lt_trichotomy n 0 with hneg | h0 | hpos
  · have : (n : ℝ) ≤ -1 := by exact_mod_cast Int.le_sub_one_of_lt hneg
    nlinarith
  · rw [h0] at h4
    simp at h4
  · have : (1 : ℝ) ≤ n := by exact_mod_cast hpos
    nlinarith

end Verif
