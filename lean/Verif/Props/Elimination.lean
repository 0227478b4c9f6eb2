import Verif.Lemmas.Elimination
import Verif.Props.Uncoupled

/-!
# Property C106: the Reich-Moore approximation is exact for orthogonal photon widths
-/

namespace Verif

open Complex Matrix

variable {option : BoundaryOption} {K : Constants} {lib : CoulombLibrary} {E : ℝ}

theorem eliminates_reactions {g g' : SpinGroup} (hg : g.Built) (hg' : g'.Built)
    {σ : Fin g.channels.length → Fin g'.channels.length}
    (h : Spec.Eliminates E σ g.table.resonances g'.table.resonances) {capture : ReactionID}
    (hcap : Spec.captureID g.channels = some capture) :
    Spec.captureID g'.channels = some capture ∧ capture ∈ g.reactions ∧
    (∀ id ∈ g.reactions, id = capture ∨ ∃ i : Fin g.channels.length, g.channels[i].reaction = id) ∧
    ∀ id, id ∈ g'.reactions ↔ id ∈ g.reactions ∨ ∃ j ∈ Spec.leftOut σ, g'.channels[j].reaction = id := by
  have h0 := Eliminates_leavesOut h
  obtain ⟨-, first, rest, h2, h3, -⟩ := hg.incident
  obtain ⟨-, first', rest', h2', h3', -⟩ := hg'.incident
  have hfirst : first'.incident.id = first.incident.id := by
    have hm1 : first' ∈ g'.channels := by rw [h2']; simp
    have hm2 : first ∈ g'.channels := leavesOut_mem h0 (by rw [h2]; simp)
    exact ((C24_accepted _ _).mp ⟨g', hg'⟩).sameIncident _ hm1 _ hm2
  rw [captureID_eq h2] at hcap
  refine ⟨by rw [captureID_eq h2', hfirst, hcap], ?_, fun id hid => ?_, fun id => ?_⟩
  · rw [h3, List.mem_append, ← Option.some.inj hcap]
    exact Or.inr (by simp)
  · rw [h3, List.mem_append] at hid
    rcases hid with hid | hid
    · obtain ⟨c, hc, rfl⟩ := List.mem_map.mp hid
      obtain ⟨i, hi, rfl⟩ := List.getElem_of_mem hc
      exact Or.inr ⟨⟨i, hi⟩, rfl⟩
    · rw [← Option.some.inj hcap]
      exact Or.inl (by simpa using hid)
  · rw [h3, h3', hfirst, List.mem_append, List.mem_append]
    constructor
    · rintro (h4 | h4)
      · obtain ⟨c, hc, rfl⟩ := List.mem_map.mp h4
        obtain ⟨j, hj, rfl⟩ := List.getElem_of_mem hc
        by_cases hr : (⟨j, hj⟩ : Fin g'.channels.length) ∈ Set.range σ
        · obtain ⟨i, hi⟩ := hr
          have h5 : g'.channels[j] = g.channels[i] := by
            have := h.sameChannels i
            simp only [hi] at this
            exact this
          exact Or.inl (Or.inl (List.mem_map.mpr ⟨g.channels[i], List.getElem_mem _, by rw [h5]⟩))
        · exact Or.inr ⟨⟨j, hj⟩, mem_leftOut.mpr hr, rfl⟩
      · exact Or.inl (Or.inr h4)
    · rintro ((h4 | h4) | ⟨j, -, rfl⟩)
      · obtain ⟨c, hc, rfl⟩ := List.mem_map.mp h4
        exact Or.inl (List.mem_map.mpr ⟨c, leavesOut_mem h0 hc, rfl⟩)
      · exact Or.inr h4
      · exact Or.inl (List.mem_map.mpr ⟨_, List.getElem_mem _, rfl⟩)

/-- The cross sections of a spin group and of the one in which channels are eliminated. -/
theorem eliminated_core {g g' : SpinGroup} (hg : g.Built) (hg' : g'.Built)
    {σ : Fin g.channels.length → Fin g'.channels.length}
    (h : Spec.Eliminates E σ g.table.resonances g'.table.resonances)
    (hB : option = .constant → ∀ j ∈ Spec.leftOut σ, g'.channels[j].boundary = 0)
    {capture : ReactionID} (hcap : Spec.captureID g.channels = some capture) {X : Finset ReactionID}
    (hX : ∀ id, id ∈ X ↔ id = capture ∨ ∃ j ∈ Spec.leftOut σ, g'.channels[j].reaction = id)
    (hd : ∀ i : Fin g.channels.length, ∀ j ∈ Spec.leftOut σ,
      g'.channels[j].reaction ≠ g.channels[i].reaction)
    {cache₁ cache₂ : MatrixCache g'.channels.length} {start m' : CrossSectionMap}
    (hok : g'.evaluate option K lib E cache₁ start = .ok (m', cache₂))
    (cache : MatrixCache g.channels.length) (start₂ : CrossSectionMap) :
    ∃ m c, g.evaluate option K lib E cache start₂ = .ok (m, c) ∧
      (∀ id ∉ X, start₂ id = start id → m id = m' id) ∧
      ∃ f f' : ReactionID → ℝ, (∀ id, (m id).getD 0 = (start₂ id).getD 0 + f id) ∧
        (∀ id, (m' id).getD 0 = (start id).getD 0 + f' id) ∧ (∀ id ∉ X, f' id = f id) ∧
        ∑ id ∈ X, f' id = f capture ∧ ∀ id ∉ g.reactions, f id = 0 := by
  obtain ⟨P, S, w, phi, hev', hres'⟩ := evaluate_ok hg' hok
  obtain ⟨hev, hp', hx⟩ := (Evaluable_eliminated h hB).mp hev'
  obtain ⟨⟨m, c⟩, hm⟩ := evaluate_ok_of hg hev cache start₂
  obtain ⟨P₂, S₂, w₂, phi₂, hev₂, hres⟩ := evaluate_ok hg hm
  obtain ⟨hcap', hmem, -, hreac⟩ := eliminates_reactions hg hg' h hcap
  have hL := logDerivative_photon (K := K) (lib := lib) h hB (fun j hj => (hx j hj).1)
    (fun ho j hj => (hx j hj).2.1 ho)
  have hT := (tMatrix_eliminated h hp' hev.noPole hL).2 hev.invertible
  obtain ⟨c1, c2⟩ := contribution_eliminated (K := K) (w := w) (phi := phi) h hT hcap' hcap hX hd
  refine ⟨m, c, hm, fun id hid he => ?_, _, _, fun id => ?_, fun id => ?_, c1, c2,
    fun id hid => contribution_absent hg hid⟩
  · have h1 : id ∈ g'.reactions ↔ id ∈ g.reactions := by
      rw [hreac]
      exact or_iff_left fun hj => hid ((hX id).mpr (Or.inr hj))
    rw [hres id, hres' id, Evaluable_contribution hev₂ hev id, c1 id hid, he]
    simp only [h1]
  · rw [hres id, Evaluable_contribution hev₂ hev id]
    split
    · rfl
    · rename_i hid
      rw [contribution_absent hg hid, add_zero]
  · rw [hres' id]
    split
    · rfl
    · rename_i hid
      rw [contribution_absent hg' hid, add_zero]

/-- **C106.** If a spin group with photon or fission channels in which different resonances have orthogonal
widths can be evaluated, then so can the group in which these channels are eliminated. All other
reactions have the same cross sections, and the capture cross section is the sum of the cross sections of
the eliminated reactions (and of the capture cross section that was there before). -/
theorem C106_spin_group {g g' : SpinGroup} (hg : g.Built) (hg' : g'.Built)
    {σ : Fin g.channels.length → Fin g'.channels.length}
    (h : Spec.Eliminates E σ g.table.resonances g'.table.resonances)
    (hB : option = .constant → ∀ j ∈ Spec.leftOut σ, g'.channels[j].boundary = 0)
    {capture : ReactionID} (hcap : Spec.captureID g.channels = some capture) {X : Finset ReactionID}
    (hX : ∀ id, id ∈ X ↔ id = capture ∨ ∃ j ∈ Spec.leftOut σ, g'.channels[j].reaction = id)
    (hd : ∀ i : Fin g.channels.length, ∀ j ∈ Spec.leftOut σ,
      g'.channels[j].reaction ≠ g.channels[i].reaction)
    {cache₁ cache₂ : MatrixCache g'.channels.length} {start m' : CrossSectionMap}
    (hok : g'.evaluate option K lib E cache₁ start = .ok (m', cache₂))
    (cache : MatrixCache g.channels.length) :
    ∃ m c, g.evaluate option K lib E cache start = .ok (m, c) ∧ (∀ id ∉ X, m id = m' id) ∧
      (m capture).getD 0 - (start capture).getD 0 = ∑ id ∈ X, ((m' id).getD 0 - (start id).getD 0) := by
  obtain ⟨m, c, hm, h1, f, f', h2, h3, -, h5, -⟩ := eliminated_core hg hg' h hB hcap hX hd hok cache start
  refine ⟨m, c, hm, fun id hid => h1 id hid rfl, ?_⟩
  simp only [h2, h3, add_sub_cancel_left]
  exact h5.symm

/-- **C106, the other direction.** The spin group with explicit channels can be evaluated if the one in which
they are eliminated can, the functions of these channels have values, and the energy is not a pole. -/
theorem C106_explicit {g g' : SpinGroup} (hg : g.Built) (hg' : g'.Built)
    {σ : Fin g.channels.length → Fin g'.channels.length}
    (h : Spec.Eliminates E σ g.table.resonances g'.table.resonances)
    (hB : option = .constant → ∀ j ∈ Spec.leftOut σ, g'.channels[j].boundary = 0)
    (hp : ∀ r ∈ g'.table.resonances, ¬ (r.energy = E ∧ r.eliminated = 0))
    (hvalues : ∀ j ∈ Spec.leftOut σ,
      (∃ p, g'.channels[j].penetrability K lib E = .ok p) ∧
      (option = .constant → ∃ s, g'.channels[j].shiftFactor K lib E = .ok s) ∧
      (∃ w, g'.channels[j].coulombPhaseShift K E = .ok w) ∧
      ∃ phi, g'.channels[j].phaseShift K lib E = .ok phi)
    {cache₁ cache₂ : MatrixCache g.channels.length} {start m : CrossSectionMap}
    (hok : g.evaluate option K lib E cache₁ start = .ok (m, cache₂))
    (cache : MatrixCache g'.channels.length) (start' : CrossSectionMap) :
    ∃ m' c, g'.evaluate option K lib E cache start' = .ok (m', c) := by
  classical
  obtain ⟨P, S, w, phi, hev, -⟩ := evaluate_ok hg hok
  have hσ := h.order.injective
  have hext : ∀ (f : Fin g.channels.length → ℝ) (p : Fin g'.channels.length → ℝ → Prop),
      (∀ j ∈ Spec.leftOut σ, ∃ x, p j x) →
      ∃ f' : Fin g'.channels.length → ℝ, f' ∘ σ = f ∧ ∀ j ∈ Spec.leftOut σ, p j (f' j) := by
    intro f p hp
    refine ⟨fun j => if hj : ∃ i, σ i = j then f hj.choose
      else (hp j (mem_leftOut.mpr hj)).choose, ?_, fun j hj => ?_⟩
    · funext i
      have hi : ∃ k, σ k = σ i := ⟨i, rfl⟩
      rw [Function.comp_apply, dif_pos hi, hσ hi.choose_spec]
    · have hj' : ¬ ∃ i, σ i = j := mem_leftOut.mp hj
      dsimp only
      rw [dif_neg hj']
      exact (hp j hj).choose_spec
  obtain ⟨P', rfl, hP⟩ := hext P (fun j x => g'.channels[j].penetrability K lib E = .ok x)
    fun j hj => (hvalues j hj).1
  obtain ⟨S', rfl, hS⟩ := hext S (fun j x => option = .constant → g'.channels[j].shiftFactor K lib E = .ok x)
    fun j hj => by
      by_cases ho : option = .constant
      · obtain ⟨s, hs⟩ := (hvalues j hj).2.1 ho
        exact ⟨s, fun _ => hs⟩
      · exact ⟨0, fun h => absurd h ho⟩
  obtain ⟨w', rfl, hw⟩ := hext w (fun j x => g'.channels[j].coulombPhaseShift K E = .ok x)
    fun j hj => (hvalues j hj).2.2.1
  obtain ⟨phi', rfl, hphi⟩ := hext phi (fun j x => g'.channels[j].phaseShift K lib E = .ok x)
    fun j hj => (hvalues j hj).2.2.2
  have hev' := (Evaluable_eliminated (option := option) (K := K) (lib := lib) h hB).mpr
    ⟨hev, hp, fun j hj => ⟨hP j hj, hS j hj, hw j hj, hphi j hj⟩⟩
  obtain ⟨⟨m', c'⟩, hm'⟩ := evaluate_ok_of hg' hev' cache start'
  exact ⟨m', c', hm'⟩

theorem evaluateTMatrix_noPole {g : SpinGroup} {cache cache' : MatrixCache g.channels.length}
    {result result' : Str → Option ℂ}
    (h : g.evaluateTMatrix option K lib E cache result = .ok (result', cache')) :
    ∀ r ∈ g.table.resonances, ¬ (r.energy = E ∧ r.eliminated = 0) := by
  unfold SpinGroup.evaluateTMatrix at h
  simp only [Bind.bind, Except.bind] at h
  cases hP : collect fun i => g.channels[i].penetrability K lib E with
  | error e => rw [hP] at h; cases h
  | ok P =>
    rw [hP] at h
    simp only at h
    by_cases hneg : ∃ i, P i < 0
    · rw [if_pos hneg] at h; cases h
    · rw [if_neg hneg] at h
      cases hrl : rlmatrix option K lib g.channels g.table.resonances E P cache with
      | error e => rw [hrl] at h; cases h
      | ok c =>
        obtain ⟨-, hpole, -⟩ := rlmatrix_ok.mp hrl
        exact fun r hr => (denominator_ne_zero r E).mp (hpole r hr)

/-- **C106 for the T-matrix:** the elements between the remaining channels do not change. -/
theorem C106_t_matrix {g g' : SpinGroup} (hg : g.Built) (hg' : g'.Built)
    {σ : Fin g.channels.length → Fin g'.channels.length}
    (h : Spec.Eliminates E σ g.table.resonances g'.table.resonances)
    (hB : option = .constant → ∀ j ∈ Spec.leftOut σ, g'.channels[j].boundary = 0)
    (harrow : ∀ c ∈ g'.channels, ¬ ContainsArrow c.id)
    {cache₁ cache₁' : MatrixCache g.channels.length} {cache₂ cache₂' : MatrixCache g'.channels.length}
    {start start' t t' : Str → Option ℂ}
    (hok : g.evaluateTMatrix option K lib E cache₁ start = .ok (t, cache₁'))
    (hok' : g'.evaluateTMatrix option K lib E cache₂ start' = .ok (t', cache₂')) :
    ∀ c ∈ g.channels, ∀ d ∈ g.channels, t' (tMatrixKey c.id d.id) = t (tMatrixKey c.id d.id) := by
  have h0 := Eliminates_leavesOut h
  obtain ⟨P, S, hP, hS, a1, a2, hdet, hT, -⟩ :=
    evaluateTMatrix_ok hg (fun c hc => harrow c (leavesOut_mem h0 hc)) hok
  obtain ⟨P', S', hP', hS', b1, b2, hdet', hT', -⟩ := evaluateTMatrix_ok hg' harrow hok'
  have hPP : P = P' ∘ σ := by
    funext i
    have := hP' (σ i)
    rw [h.sameChannels i, hP i] at this
    exact Except.ok.inj this
  have hSS : Spec.tMatrix option g.channels g.table.resonances E P S
      = Spec.tMatrix option g.channels g.table.resonances E (P' ∘ σ) (S' ∘ σ) ∧
      Spec.levelDenominator option g.channels g.table.resonances E P S
      = Spec.levelDenominator option g.channels g.table.resonances E (P' ∘ σ) (S' ∘ σ) := by
    cases option with
    | shiftFactor => rw [hPP]; exact ⟨rfl, rfl⟩
    | constant =>
      have : S = S' ∘ σ := by
        funext i
        have := hS' rfl (σ i)
        rw [h.sameChannels i, hS rfl i] at this
        exact Except.ok.inj this
      rw [hPP, this]
      exact ⟨rfl, rfl⟩
  rw [hSS.2] at hdet
  have hL := logDerivative_photon (K := K) (lib := lib) h hB (fun j _ => hP' j) (fun ho j _ => hS' ho j)
  have hTT := (tMatrix_eliminated h (evaluateTMatrix_noPole hok') (evaluateTMatrix_noPole hok) hL).2 hdet
  intro c hc d hd
  obtain ⟨i, hi, rfl⟩ := List.getElem_of_mem hc
  obtain ⟨j, hj, rfl⟩ := List.getElem_of_mem hd
  have h3 := hT' (σ ⟨i, hi⟩) (σ ⟨j, hj⟩)
  have h4 := hT ⟨i, hi⟩ ⟨j, hj⟩
  rw [h.sameChannels, h.sameChannels, hTT, ← hSS.1] at h3
  exact h3.trans h4.symm

/-- **C106 for compound systems:** channels may be eliminated in every spin group. -/
theorem C106_system {s s' : CompoundSystem} (hg : ∀ st ∈ s, st.group.Built) (hg' : ∀ st ∈ s', st.group.Built)
    {capture : ReactionID} {X : Finset ReactionID} (hX : capture ∈ X)
    (h : List.Forall₂ (fun st st' : GroupState =>
      Spec.captureID st.group.channels = some capture ∧
      ∃ σ : Fin st.group.channels.length → Fin st'.group.channels.length,
        Spec.Eliminates E σ st.group.table.resonances st'.group.table.resonances ∧
        (option = .constant → ∀ j ∈ Spec.leftOut σ, st'.group.channels[j].boundary = 0) ∧
        (∀ j ∈ Spec.leftOut σ, st'.group.channels[j].reaction ∈ X) ∧
        ∀ i : Fin st.group.channels.length, st.group.channels[i].reaction ∈ X →
          st.group.channels[i].reaction = capture ∧
          ∀ j ∈ Spec.leftOut σ, st'.group.channels[j].reaction ≠ capture) s s')
    {start m' start₂ : CrossSectionMap} {s₂' : CompoundSystem}
    (hok : CompoundSystem.evaluate option K lib E s' start = .ok (m', s₂'))
    (hs : ∀ id ∉ X, start₂ id = start id)
    (hs₂ : (start₂ capture).getD 0 = ∑ id ∈ X, (start id).getD 0) :
    ∃ m s₂, CompoundSystem.evaluate option K lib E s start₂ = .ok (m, s₂) ∧ (∀ id ∉ X, m id = m' id) ∧
      (m capture).getD 0 = ∑ id ∈ X, (m' id).getD 0 := by
  classical
  induction h generalizing start start₂ m' s₂' with
  | nil =>
    rw [evaluate_nil] at hok
    cases hok
    exact ⟨start₂, [], rfl, hs, hs₂⟩
  | @cons st st' s s' h1 _ ih =>
    obtain ⟨hcap, σ, h1, hB, hout, hkept⟩ := h1
    obtain ⟨r, c, rest, h2, h3, rfl⟩ := evaluate_cons_ok.mp hok
    let X' : Finset ReactionID := insert capture ((Spec.leftOut σ).image fun j => st'.group.channels[j].reaction)
    have hX' : ∀ id, id ∈ X' ↔ id = capture ∨ ∃ j ∈ Spec.leftOut σ, st'.group.channels[j].reaction = id := by
      intro id
      simp only [X', Finset.mem_insert, Finset.mem_image]
    have hsub : X' ⊆ X := by
      intro id hid
      rcases (hX' id).mp hid with rfl | ⟨j, hj, rfl⟩
      · exact hX
      · exact hout j hj
    have hd : ∀ i : Fin st.group.channels.length, ∀ j ∈ Spec.leftOut σ,
        st'.group.channels[j].reaction ≠ st.group.channels[i].reaction := by
      intro i j hj e
      obtain ⟨k1, k2⟩ := hkept i (e ▸ hout j hj)
      exact k2 j hj (e.trans k1)
    obtain ⟨m, c', h4, h5, f, f', f1, f2, f3, f4, f5⟩ := eliminated_core (hg st List.mem_cons_self)
      (hg' st' List.mem_cons_self) h1 hB hcap hX' hd h2 st.cache start₂
    obtain ⟨-, -, hreac, -⟩ := eliminates_reactions (hg st List.mem_cons_self)
      (hg' st' List.mem_cons_self) h1 hcap
    have hsum : ∑ id ∈ X, f' id = f capture := by
      rw [← f4, ← Finset.sum_subset hsub]
      intro id hid hid'
      rw [f3 id hid', f5 id]
      intro hr
      rcases hreac id hr with rfl | ⟨i, rfl⟩
      · exact hid' ((hX' _).mpr (Or.inl rfl))
      · exact hid' ((hX' _).mpr (Or.inl (hkept i hid).1))
    obtain ⟨m₂, s₂, h6, h7⟩ := ih (fun x hx => hg x (List.mem_cons_of_mem _ hx))
      (fun x hx => hg' x (List.mem_cons_of_mem _ hx)) h3
      (fun id hid => h5 id (fun hx => hid (hsub hx)) (hs id hid)) (by
        rw [f1, hs₂, ← hsum, ← Finset.sum_add_distrib]
        exact Finset.sum_congr rfl fun id _ => (f2 id).symm)
    exact ⟨m₂, _, evaluate_cons_ok.mpr ⟨_, _, _, h4, h6, rfl⟩, h7⟩

namespace Example

noncomputable def gammaA : ParticlePair := ⟨neutron, target, "gA".toList, 1 / 2, 1 / 2⟩
noncomputable def gammaB : ParticlePair := ⟨neutron, target, "gB".toList, 1 / 2, 1 / 2⟩

noncomputable def photonA : Channel :=
  makeChannel .photon pair gammaA gammaA.id 0 ⟨0, 1 / 2, 1 / 2, 1⟩ radii 0
noncomputable def photonB : Channel :=
  makeChannel .photon pair gammaB gammaB.id 0 ⟨0, 1 / 2, 1 / 2, 1⟩ radii 0

/-- Two resonances with orthogonal photon widths: 3 · 4 - 4 · 3 = 0. The second one has further photon
channels, which have been eliminated already. -/
noncomputable def explicitResonances : List Resonance := [⟨1, [3, 1 / 2, 4], 0⟩, ⟨5, [4, 1 / 4, -3], 12⟩]

noncomputable def reichMoore : List Resonance := [⟨1, [1 / 2], 5⟩, ⟨5, [1 / 4], 13⟩]

theorem leftOut_middle : Spec.leftOut (fun _ : Fin [elastic].length => (⟨1, by decide⟩ :
    Fin [photonA, elastic, photonB].length)) = {⟨0, by decide⟩, ⟨2, by decide⟩} := by
  ext ⟨j, hj⟩
  have hj3 : j < 3 := hj
  rw [mem_leftOut]
  simp only [Set.mem_range, Fin.mk.injEq, Finset.mem_insert, Finset.mem_singleton]
  have : (∃ _ : Fin [elastic].length, 1 = j) ↔ 1 = j := ⟨fun ⟨_, h⟩ => h, fun h => ⟨⟨0, by decide⟩, h⟩⟩
  rw [this]
  omega

theorem eliminates : Spec.Eliminates 2 (channels := [elastic]) (channels' := [photonA, elastic, photonB])
    (fun _ => ⟨1, by decide⟩) reichMoore explicitResonances := by
  have one : ∀ p : Fin [elastic].length → Prop, p ⟨0, by decide⟩ → ∀ i, p i := by
    rintro p h0 ⟨i, hi⟩
    have hi1 : i < 1 := hi
    interval_cases i
    exact h0
  refine ⟨?_, one _ rfl, ?_, ?_, ?_, ?_⟩
  · rintro ⟨i, hi⟩ ⟨j, hj⟩ hij
    have hj1 : j < 1 := hj
    have hij' : i < j := hij
    omega
  · rw [leftOut_middle]
    intro j hj
    simp only [Finset.mem_insert, Finset.mem_singleton] at hj
    rcases hj with rfl | rfl <;> decide
  · rw [leftOut_middle]
    intro j hj
    simp only [Finset.mem_insert, Finset.mem_singleton] at hj
    rcases hj with rfl | rfl
    · exact ⟨Or.inl rfl, by norm_num [Channel.belowThreshold, photonA, makeChannel, pair]⟩
    · exact ⟨Or.inl rfl, by norm_num [Channel.belowThreshold, photonB, makeChannel, pair]⟩
  · rw [leftOut_middle]
    refine .cons ⟨rfl, ⟨fun _ => rfl, fun _ => rfl⟩, one _ rfl, ?_⟩
      (.cons ⟨rfl, ⟨fun _ => rfl, fun _ => rfl⟩, one _ rfl, ?_⟩ .nil)
    · rw [Finset.sum_pair (by decide)]
      norm_num [Resonance.width]
    · rw [Finset.sum_pair (by decide)]
      norm_num [Resonance.width]
  · rw [leftOut_middle]
    refine .cons ?_ (.cons (by simp) .nil)
    simp only [List.mem_singleton, forall_eq]
    rw [Finset.sum_pair (by decide)]
    norm_num [Resonance.width]

theorem reichMoore_consistent : Spec.ConsistentGroup [elastic] ⟨[elastic.id], reichMoore⟩ := by
  refine ⟨by simp, ?_, by simp, ?_, ⟨elastic, by simp, rfl⟩, rfl⟩
  · intro c hc d hd
    simp only [List.mem_singleton] at hc hd
    rw [hc, hd]
  · intro c hc d hd
    simp only [List.mem_singleton] at hc hd
    subst hc hd
    exact ⟨rfl, rfl⟩

theorem explicit_consistent : Spec.ConsistentGroup [photonA, elastic, photonB]
    ⟨[photonA.id, elastic.id, photonB.id], explicitResonances⟩ := by
  refine ⟨by simp, ?_, ?_, ?_, ⟨elastic, by simp, rfl⟩, rfl⟩
  · intro c hc d hd
    simp only [List.mem_cons, List.not_mem_nil, or_false] at hc hd
    rcases hc with rfl | rfl | rfl <;> rcases hd with rfl | rfl | rfl <;> rfl
  · have p1 : Physical ⟨0, 1 / 2, 1 / 2, 1⟩ := ⟨⟨1, by norm_num⟩, ⟨1, by norm_num⟩⟩
    have n1 : photonA.id ≠ elastic.id := fun h =>
      absurd ((C07_channelID_injective _ _ _ _ p1 p1).mp h).1 (by decide)
    have n2 : photonA.id ≠ photonB.id := fun h =>
      absurd ((C07_channelID_injective _ _ _ _ p1 p1).mp h).1 (by decide)
    have n3 : elastic.id ≠ photonB.id := fun h =>
      absurd ((C07_channelID_injective _ _ _ _ p1 p1).mp h).1 (by decide)
    simp [n1, n2, n3]
  · intro c hc d hd
    simp only [List.mem_cons, List.not_mem_nil, or_false] at hc hd
    rcases hc with rfl | rfl | rfl <;> rcases hd with rfl | rfl | rfl <;> exact ⟨rfl, rfl⟩

/-- C106 applies: the spin group with two photon channels can be evaluated at energy 2, and the elastic and
capture cross sections of the group in which they are eliminated follow from it. -/
example (option : BoundaryOption) (lib : CoulombLibrary) :
    ∃ g g' : SpinGroup, g.Built ∧ g'.Built ∧ g.channels = [elastic] ∧
      g'.channels = [photonA, elastic, photonB] ∧
      ∀ (cache : MatrixCache g.channels.length) (cache' : MatrixCache g'.channels.length),
      ∃ m c m' c', g.evaluate option constants lib 2 cache (fun _ => none) = .ok (m, c) ∧
        g'.evaluate option constants lib 2 cache' (fun _ => none) = .ok (m', c') ∧
        m elastic.reaction = m' elastic.reaction ∧
        (m (.transition pair.id "capture".toList)).getD 0
          = (m' (.transition pair.id "capture".toList)).getD 0
            + ((m' photonA.reaction).getD 0 + (m' photonB.reaction).getD 0) := by
  obtain ⟨g, hg⟩ := (C24_accepted _ _).mpr reichMoore_consistent
  obtain ⟨g', hg'⟩ := (C24_accepted _ _).mpr explicit_consistent
  obtain ⟨hb, h1, h2⟩ := SpinGroup.Built.of_make hg
  obtain ⟨hb', h1', h2'⟩ := SpinGroup.Built.of_make hg'
  refine ⟨g, g', hb, hb', h1, h1', fun cache cache' => ?_⟩
  obtain ⟨c, r, i, t⟩ := g
  obtain ⟨c', r', i', t'⟩ := g'
  simp only at h1 h2 h1' h2'
  subst h1 h2 h1' h2'
  obtain ⟨⟨m', c'⟩, h3⟩ := (C19_neutral_channels (option := option) (K := constants) (lib := lib)
    (E := 2) hb' (by
      intro c hc
      have hc' : c ∈ [photonA, elastic, photonB] := hc
      simp only [List.mem_cons, List.not_mem_nil, or_false] at hc'
      rcases hc' with rfl | rfl | rfl
      · exact ⟨by decide, fun h => absurd h (by decide),
          fun _ => by norm_num [photonA, makeChannel, gammaA],
          by norm_num [photonA, makeChannel, pair], ⟨1, one_pos, rfl⟩, ⟨1, rfl⟩, ⟨1, rfl⟩⟩
      · exact neutralAt elastic List.mem_cons_self
      · exact ⟨by decide, fun h => absurd h (by decide),
          fun _ => by norm_num [photonB, makeChannel, gammaB],
          by norm_num [photonB, makeChannel, pair], ⟨1, one_pos, rfl⟩, ⟨1, rfl⟩, ⟨1, rfl⟩⟩)
    (by
      intro r hr
      have hr' : r ∈ explicitResonances := hr
      simp only [explicitResonances, List.mem_cons, List.not_mem_nil, or_false] at hr'
      rcases hr' with rfl | rfl <;> rfl)
    (by
      intro r hr
      have hr' : r ∈ explicitResonances := hr
      simp only [explicitResonances, List.mem_cons, List.not_mem_nil, or_false] at hr'
      rcases hr' with rfl | rfl <;> norm_num) cache' (fun _ => none) fun _ => none).1
  obtain ⟨m, c, h4, h5, h6⟩ := C106_spin_group hb hb' eliminates
    (capture := .transition pair.id "capture".toList)
    (X := {.transition pair.id "capture".toList, photonA.reaction, photonB.reaction})
    (by
      intro _
      rw [leftOut_middle]
      intro j hj
      simp only [Finset.mem_insert, Finset.mem_singleton] at hj
      rcases hj with rfl | rfl <;> rfl) rfl
    (by
      intro id
      rw [leftOut_middle]
      simp only [Finset.mem_insert, Finset.mem_singleton, exists_eq_or_imp, exists_eq_left]
      constructor
      · rintro (h | h | h)
        exacts [Or.inl h, Or.inr (Or.inl h.symm), Or.inr (Or.inr h.symm)]
      · rintro (h | h | h)
        exacts [Or.inl h, Or.inr (Or.inl h.symm), Or.inr (Or.inr h.symm)])
    (by
      rw [leftOut_middle]
      rintro ⟨i, hi⟩ j hj
      have hi1 : i < 1 := hi
      interval_cases i
      simp only [Finset.mem_insert, Finset.mem_singleton] at hj
      rcases hj with rfl | rfl
      · show photonA.reaction ≠ elastic.reaction
        decide
      · show photonB.reaction ≠ elastic.reaction
        decide) h3 cache
  refine ⟨m, c, m', c', h4, h3, h5 _ (by decide), ?_⟩
  rw [Finset.sum_insert (by decide), Finset.sum_insert (by decide), Finset.sum_singleton] at h6
  simpa using h6

end Example

end Verif
