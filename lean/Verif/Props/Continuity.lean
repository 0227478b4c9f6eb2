import Verif.Lemmas.Continuity
import Verif.Props.SpinGroup

/-!
# Property C72: cross sections depend continuously on the energy
-/

namespace Verif

open Filter Topology Complex

/-- Cross sections that are continuous functions of the energy. -/
structure ContinuousMaps {ι : Type*} (σ : ℝ → ι → Option ℝ) (E₀ : ℝ) : Prop where
  support : ∃ ids : List ι, ∀ E, ∀ id ∉ ids, σ E id = none
  isSome : ∀ id E, (σ E id).isSome = (σ E₀ id).isSome
  continuous : ∀ id, ContinuousAt (fun E => (σ E id).getD 0) E₀

theorem ContinuousMaps.close {ι : Type*} {σ : ℝ → ι → Option ℝ} {E₀ : ℝ} (h : ContinuousMaps σ E₀)
    {ε : ℝ} (hε : 0 < ε) : ∀ᶠ E in 𝓝 E₀, ∀ id, Spec.Close ε (σ E id) (σ E₀ id) := by
  classical
  obtain ⟨ids, hids⟩ := h.support
  have : ∀ᶠ E in 𝓝 E₀, ∀ id ∈ ids.toFinset, Spec.Close ε (σ E id) (σ E₀ id) := by
    rw [Finset.eventually_all]
    intro id _
    filter_upwards [Metric.continuousAt_iff'.mp (h.continuous id) ε hε] with E hE
    have hs := h.isSome id E
    revert hE hs
    cases σ E id <;> cases σ E₀ id <;> simp [Spec.Close, Real.dist_eq]
  filter_upwards [this] with E hE id
  by_cases hid : id ∈ ids
  · exact hE id (List.mem_toFinset.mpr hid)
  · rw [hids E id hid, hids E₀ id hid]
    trivial

section

variable {option : BoundaryOption} {K : Constants} {lib : CoulombLibrary} {E₀ : ℝ}

/-- One spin group, for a map that is itself a function of the energy. -/
theorem group_continuous {g : SpinGroup} (hg : g.Built)
    (hr : ∀ c ∈ g.channels, Spec.Regular option c E₀) {start : ℝ → CrossSectionMap}
    (hstart : ContinuousMaps start E₀) {cache cache' : MatrixCache g.channels.length}
    {m : CrossSectionMap} (h : g.evaluate option K lib E₀ cache (start E₀) = .ok (m, cache')) :
    ∃ σ : ℝ → CrossSectionMap, ContinuousMaps σ E₀ ∧ σ E₀ = m ∧
      ∀ᶠ E in 𝓝 E₀, ∀ cache, ∃ cache', g.evaluate option K lib E cache (start E) = .ok (σ E, cache') := by
  classical
  obtain ⟨P₀, S₀, w₀, phi₀, hev, hres⟩ := evaluate_ok hg h
  have hch : ∀ i : Fin g.channels.length, ∃ P S w phi,
      ContinuousChannel option K lib g.channels[i] E₀ P S w phi := fun i =>
    (hr _ (List.getElem_mem _)).continuous (hev.penetrability i)
  choose P S w phi hch using hch
  have hev' : Spec.Evaluable option K lib g.channels g.table.resonances E₀ (fun c => P c E₀)
      (fun c => S c E₀) (fun c => w c E₀) (fun c => phi c E₀) := by
    have hv := fun i => (hch i).values.self_of_nhds
    have e1 : P₀ = fun c => P c E₀ := by
      funext i; simpa using (hev.penetrability i).symm.trans (hv i).1
    have e2 : option = .constant → S₀ = fun c => S c E₀ := by
      intro ho; funext i; simpa using (hev.shiftFactor ho i).symm.trans ((hv i).2.1 ho)
    have e3 : w₀ = fun c => w c E₀ := by
      funext i; simpa using (hev.coulomb i).symm.trans (hv i).2.2.1
    have e4 : phi₀ = fun c => phi c E₀ := by
      funext i; simpa using (hev.phase i).symm.trans (hv i).2.2.2.1
    obtain ⟨h1, h2, h3, h4, h5, h6, h7, h8, h9⟩ := hev
    refine ⟨fun i => (hv i).1, fun ho i => (hv i).2.1 ho, fun i => (hv i).2.2.1,
      fun i => (hv i).2.2.2.1, fun i => (hv i).2.2.2.2, h6, h7, ?_, h9⟩
    rw [← e1]
    cases option with
    | shiftFactor => exact h8
    | constant => rw [← e2 rfl]; exact h8
  obtain ⟨hnear, hcont⟩ := contribution_continuous hch hev'
  refine ⟨fun E id => if id ∈ g.reactions then some ((start E id).getD 0
      + Spec.contribution option K g.channels g.table.resonances E (fun c => P c E) (fun c => S c E)
        (fun c => w c E) (fun c => phi c E) id) else start E id, ⟨?_, ?_, ?_⟩, ?_, ?_⟩
  · obtain ⟨ids, hids⟩ := hstart.support
    refine ⟨ids ++ g.reactions, fun E id hid => ?_⟩
    rw [List.mem_append, not_or] at hid
    simp only [if_neg hid.2]
    exact hids E id hid.1
  · intro id E
    by_cases hid : id ∈ g.reactions
    · simp only [if_pos hid, Option.isSome_some]
    · simp only [if_neg hid]
      exact hstart.isSome id E
  · intro id
    by_cases hid : id ∈ g.reactions
    · simp only [if_pos hid, Option.getD_some]
      exact (hstart.continuous id).add (hcont id)
    · simp only [if_neg hid]
      exact hstart.continuous id
  · funext id
    rw [hres id, Evaluable_contribution hev hev']
  · filter_upwards [hnear] with E hE cache
    obtain ⟨⟨m', cache'⟩, h'⟩ := evaluate_ok_of hg hE cache (start E)
    obtain ⟨P', S', w', phi', hev'', hres'⟩ := evaluate_ok hg h'
    refine ⟨cache', ?_⟩
    rw [h']
    congr 2
    funext id
    rw [hres' id, Evaluable_contribution hev'' hE]

/-- C72 for a spin group: if it can be evaluated at an energy around which its channels are regular,
then it can be evaluated at all energies close to it, whatever was evaluated before, and reports nearly
the same cross sections. -/
theorem C72_spin_group {g : SpinGroup} (hg : g.Built)
    (hr : ∀ c ∈ g.channels, Spec.Regular option c E₀) {cache cache' : MatrixCache g.channels.length}
    {m : CrossSectionMap} (h : g.evaluate option K lib E₀ cache (fun _ => none) = .ok (m, cache'))
    {ε : ℝ} (hε : 0 < ε) :
    ∃ δ > 0, ∀ E, |E - E₀| < δ → ∀ cache, ∃ m' cache',
      g.evaluate option K lib E cache (fun _ => none) = .ok (m', cache') ∧
        ∀ id, Spec.Close ε (m' id) (m id) := by
  obtain ⟨σ, hσ, rfl, hnear⟩ := group_continuous (start := fun _ _ => none) hg hr
    ⟨⟨[], fun _ _ _ => rfl⟩, fun _ _ => rfl, fun _ => continuousAt_const⟩ h
  obtain ⟨δ, hδ, hall⟩ := Metric.eventually_nhds_iff.mp (hnear.and (hσ.close hε))
  refine ⟨δ, hδ, fun E hE cache => ?_⟩
  obtain ⟨h1, h2⟩ := hall (by rw [Real.dist_eq]; exact hE)
  obtain ⟨c, hc⟩ := h1 cache
  exact ⟨_, _, hc, h2⟩

/-- A compound system, for a map that is itself a function of the energy. -/
theorem system_continuous {s : CompoundSystem} (hg : ∀ st ∈ s, st.group.Built)
    (hr : ∀ st ∈ s, ∀ c ∈ st.group.channels, Spec.Regular option c E₀)
    {start : ℝ → CrossSectionMap} (hstart : ContinuousMaps start E₀)
    {s' : CompoundSystem} {m : CrossSectionMap}
    (h : CompoundSystem.evaluate option K lib E₀ s (start E₀) = .ok (m, s')) :
    ∃ σ : ℝ → CrossSectionMap, ContinuousMaps σ E₀ ∧ σ E₀ = m ∧
      ∀ᶠ E in 𝓝 E₀, ∀ s₁ : CompoundSystem, s₁.map GroupState.group = s.map GroupState.group →
        ∃ s₂, CompoundSystem.evaluate option K lib E s₁ (start E) = .ok (σ E, s₂) := by
  induction s generalizing start s' with
  | nil =>
    rw [evaluate_nil] at h
    cases h
    refine ⟨start, hstart, rfl, Eventually.of_forall fun E s₁ hs₁ => ?_⟩
    obtain rfl := List.map_eq_nil_iff.mp hs₁
    exact ⟨[], rfl⟩
  | cons st rest ih =>
    obtain ⟨r, cache, rest', h1, h2, rfl⟩ := evaluate_cons_ok.mp h
    obtain ⟨σ, hσ, hσ₀, hnear⟩ := group_continuous (hg st List.mem_cons_self)
      (hr st List.mem_cons_self) hstart h1
    obtain ⟨τ, hτ, hτ₀, hnear'⟩ := ih (fun st hst => hg st (List.mem_cons_of_mem _ hst))
      (fun st hst => hr st (List.mem_cons_of_mem _ hst)) hσ (by rw [hσ₀]; exact h2)
    refine ⟨τ, hτ, hτ₀, ?_⟩
    filter_upwards [hnear, hnear'] with E h3 h4 s₁ hs₁
    cases s₁ with
    | nil => cases hs₁
    | cons st₁ rest₁ =>
      obtain ⟨g₁, cache₁⟩ := st₁
      simp only [List.map_cons, List.cons.injEq] at hs₁
      obtain ⟨rfl, hs₁⟩ := hs₁
      obtain ⟨c', h5⟩ := h3 cache₁
      obtain ⟨s₂, h6⟩ := h4 rest₁ hs₁
      exact ⟨_, evaluate_cons_ok.mpr ⟨_, _, _, h5, h6, rfl⟩⟩

/-- C72 for a compound system. -/
theorem C72_system {s s' : CompoundSystem} (hg : ∀ st ∈ s, st.group.Built)
    (hr : ∀ st ∈ s, ∀ c ∈ st.group.channels, Spec.Regular option c E₀) {m : CrossSectionMap}
    (h : CompoundSystem.evaluate option K lib E₀ s (fun _ => none) = .ok (m, s'))
    {ε : ℝ} (hε : 0 < ε) :
    ∃ δ > 0, ∀ E, |E - E₀| < δ → ∀ s₁ : CompoundSystem,
      s₁.map GroupState.group = s.map GroupState.group → ∃ m' s₂,
        CompoundSystem.evaluate option K lib E s₁ (fun _ => none) = .ok (m', s₂) ∧
        ∀ id, Spec.Close ε (m' id) (m id) := by
  obtain ⟨σ, hσ, rfl, hnear⟩ := system_continuous (start := fun _ _ => none) hg hr
    ⟨⟨[], fun _ _ _ => rfl⟩, fun _ _ => rfl, fun _ => continuousAt_const⟩ h
  obtain ⟨δ, hδ, hall⟩ := Metric.eventually_nhds_iff.mp (hnear.and (hσ.close hε))
  refine ⟨δ, hδ, fun E hE s₁ hs₁ => ?_⟩
  obtain ⟨h1, h2⟩ := hall (by rw [Real.dist_eq]; exact hE)
  obtain ⟨c, hc⟩ := h1 s₁ hs₁
  exact ⟨_, _, hc, h2⟩

end

end Verif
