import Verif.Props.ContinuityThreshold
import Verif.Props.PerturbationT

/-!
# Property C72 for the T-matrix
-/

namespace Verif

open Filter Topology Complex

variable {option : BoundaryOption} {K : Constants} {lib : CoulombLibrary} {E₀ : ℝ}

/-- One spin group, for maps that are themselves close to one another. -/
theorem group_continuousT {g : SpinGroup} (hg : g.Built)
    (hr : ∀ c ∈ g.channels, Spec.Regular option c E₀) (harrow : ∀ c ∈ g.channels, ¬ ContainsArrow c.id)
    {cache cache' : MatrixCache g.channels.length} {start₀ m : Str → Option ℂ}
    (h : g.evaluateTMatrix option K lib E₀ cache start₀ = .ok (m, cache')) {ε : ℝ} (hε : 0 < ε) :
    ∃ δ > 0, ∀ E, |E - E₀| < δ → ∀ cache start, ∃ m' cache',
      g.evaluateTMatrix option K lib E cache start = .ok (m', cache') ∧
      ((∀ key, Spec.CloseElements ε (start key) (start₀ key)) →
        ∀ key, Spec.CloseElements ε (m' key) (m key)) := by
  classical
  obtain ⟨P₀, S₀, hP₀, hS₀, -, hwid, hdet, hel₀, hrest₀⟩ := evaluateTMatrix_ok hg harrow h
  have hpole := evaluateTMatrix_noPole h
  have hch : ∀ i : Fin g.channels.length, ∃ P S w phi,
      ContinuousChannel option K lib g.channels[i] E₀ P S w phi := fun i =>
    (hr _ (List.getElem_mem _)).continuous (hP₀ i)
  choose P S w phi hch using hch
  have hv := fun i => (hch i).values.self_of_nhds
  have same : ∀ {E : ℝ} {P₂ S₂ : Fin g.channels.length → ℝ},
      (∀ i : Fin g.channels.length, g.channels[i].penetrability K lib E = .ok (P₂ i)) →
      (option = .constant → ∀ i : Fin g.channels.length, g.channels[i].shiftFactor K lib E = .ok (S₂ i)) →
      (∀ i : Fin g.channels.length, g.channels[i].penetrability K lib E = .ok (P i E)) →
      (option = .constant → ∀ i : Fin g.channels.length, g.channels[i].shiftFactor K lib E = .ok (S i E)) →
      Spec.levelDenominator option g.channels g.table.resonances E P₂ S₂
          = Spec.levelDenominator option g.channels g.table.resonances E (fun c => P c E) (fun c => S c E) ∧
        Spec.tMatrix option g.channels g.table.resonances E P₂ S₂
          = Spec.tMatrix option g.channels g.table.resonances E (fun c => P c E) fun c => S c E := by
    intro E P₂ S₂ h1 h2 h3 h4
    have eP : P₂ = fun c => P c E := funext fun i => Except.ok.inj ((h1 i).symm.trans (h3 i))
    rw [eP]
    revert h2 h4
    clear * -
    cases option with
    | shiftFactor => exact fun _ _ => ⟨rfl, rfl⟩
    | constant =>
      intro h2 h4
      have : S₂ = fun c => S c E := funext fun i => Except.ok.inj ((h2 rfl i).symm.trans (h4 rfl i))
      rw [this]
      exact ⟨rfl, rfl⟩
  obtain ⟨e1, e2⟩ := same hP₀ hS₀ (fun i => (hv i).1) fun ho i => (hv i).2.1 ho
  rw [e1] at hdet
  obtain ⟨hdet', hT⟩ := tMatrix_continuous hch hpole hdet
  have hpole' : ∀ᶠ E in 𝓝 E₀, ∀ r ∈ g.table.resonances, ¬ (r.energy = E ∧ r.eliminated = 0) := by
    have : ∀ᶠ E in 𝓝 E₀, ∀ r ∈ g.table.resonances.toFinset, ¬ (r.energy = E ∧ r.eliminated = 0) := by
      rw [Finset.eventually_all]
      intro r hr
      rw [List.mem_toFinset] at hr
      by_cases he : r.eliminated = 0
      · have : r.energy ≠ E₀ := fun h => hpole r hr ⟨h, he⟩
        filter_upwards [eventually_ne_nhds this.symm] with E hE h
        exact hE h.1.symm
      · filter_upwards with E h
        exact he h.2
    simpa using this
  have hvals := eventually_all.mpr fun c => (hch c).values
  have hclose : ∀ᶠ E in 𝓝 E₀, ∀ c c', ‖Spec.tMatrix option g.channels g.table.resonances E (fun c => P c E)
      (fun c => S c E) c c' - Spec.tMatrix option g.channels g.table.resonances E₀ (fun c => P c E₀)
      (fun c => S c E₀) c c'‖ < ε := by
    rw [eventually_all]
    intro c
    rw [eventually_all]
    intro c'
    simpa only [dist_eq_norm] using Metric.tendsto_nhds.mp (hT c c') ε hε
  obtain ⟨δ, hδ, hall⟩ := Metric.eventually_nhds_iff.mp (hpole'.and (hdet'.and (hvals.and hclose)))
  refine ⟨δ, hδ, fun E hE cache start => ?_⟩
  obtain ⟨h3, h1, h2, h4⟩ := hall (by rw [Real.dist_eq]; exact hE)
  obtain ⟨⟨m', cache'⟩, e⟩ := evaluateTMatrix_succeeds (option := option) (g := g) (fun i => (h2 i).1)
    (fun ho i => (h2 i).2.1 ho) (fun i => (h2 i).2.2.2.2) hwid h3 h1 cache start
  obtain ⟨P₂, S₂, hP₂, hS₂, -, -, -, hel, hrest⟩ := evaluateTMatrix_ok hg harrow e
  obtain ⟨-, e3⟩ := same hP₂ hS₂ (fun i => (h2 i).1) fun ho i => (h2 i).2.1 ho
  refine ⟨m', cache', e, fun hst key => ?_⟩
  by_cases hk : ∃ c ∈ g.channels, ∃ c' ∈ g.channels, key = tMatrixKey c.id c'.id
  · obtain ⟨c, hc, d, hd, rfl⟩ := hk
    obtain ⟨i, hi, rfl⟩ := List.getElem_of_mem hc
    obtain ⟨j, hj, rfl⟩ := List.getElem_of_mem hd
    have k1 := hel ⟨i, hi⟩ ⟨j, hj⟩
    have k2 := hel₀ ⟨i, hi⟩ ⟨j, hj⟩
    simp only [Fin.getElem_fin] at k1 k2
    rw [k1, k2, e2, e3]
    exact h4 _ _
  · push Not at hk
    rw [hrest key hk, hrest₀ key hk]
    exact hst key

theorem system_continuousT {s s' : CompoundSystem} (hg : ∀ st ∈ s, st.group.Built)
    (hr : ∀ st ∈ s, ∀ c ∈ st.group.channels, Spec.Regular option c E₀)
    (harrow : ∀ st ∈ s, ∀ c ∈ st.group.channels, ¬ ContainsArrow c.id) {start₀ m : Str → Option ℂ}
    (h : CompoundSystem.evaluateTMatrix option K lib E₀ s start₀ = .ok (m, s')) {ε : ℝ} (hε : 0 < ε) :
    ∃ δ > 0, ∀ E, |E - E₀| < δ → ∀ s₁ : CompoundSystem, s₁.map GroupState.group = s.map GroupState.group →
      ∀ start, ∃ m' s₂, CompoundSystem.evaluateTMatrix option K lib E s₁ start = .ok (m', s₂) ∧
        ((∀ key, Spec.CloseElements ε (start key) (start₀ key)) →
          ∀ key, Spec.CloseElements ε (m' key) (m key)) := by
  induction s generalizing start₀ s' with
  | nil =>
    cases h
    refine ⟨1, one_pos, fun E _ s₁ hs₁ start => ?_⟩
    obtain rfl := List.map_eq_nil_iff.mp hs₁
    exact ⟨start, [], rfl, fun h => h⟩
  | cons st rest ih =>
    have hm := List.mem_cons_self (a := st) (l := rest)
    obtain ⟨r, c, rest', h1, h2, rfl⟩ := evaluateTMatrix_cons_ok.mp h
    obtain ⟨δ₁, hδ₁, k1⟩ := group_continuousT (hg st hm) (hr st hm) (harrow st hm) h1 hε
    obtain ⟨δ₂, hδ₂, k2⟩ := ih (fun st hst => hg st (List.mem_cons_of_mem _ hst))
      (fun st hst => hr st (List.mem_cons_of_mem _ hst))
      (fun st hst => harrow st (List.mem_cons_of_mem _ hst)) h2
    refine ⟨min δ₁ δ₂, lt_min hδ₁ hδ₂, fun E hE s₁ hs₁ start => ?_⟩
    cases s₁ with
    | nil => cases hs₁
    | cons st₁ rest₁ =>
      obtain ⟨g₁, cache₁⟩ := st₁
      simp only [List.map_cons, List.cons.injEq] at hs₁
      obtain ⟨rfl, hs₁⟩ := hs₁
      obtain ⟨m₁, c₁, e1, cl1⟩ := k1 E (hE.trans_le (min_le_left _ _)) cache₁ start
      obtain ⟨m', s₂, e2, cl2⟩ := k2 E (hE.trans_le (min_le_right _ _)) rest₁ hs₁ m₁
      exact ⟨m', _, evaluateTMatrix_cons_ok.mpr ⟨_, _, _, e1, e2, rfl⟩, fun h => cl2 (cl1 h)⟩

/-- C72 for the T-matrix of a compound system: if it can be evaluated at an energy around which the channels are
regular, then it can be evaluated at all energies close to it, whatever was evaluated before, and has the same
elements with nearly the same values. -/
theorem C72_t_matrix {s s' : CompoundSystem} (hg : ∀ st ∈ s, st.group.Built)
    (hr : ∀ st ∈ s, ∀ c ∈ st.group.channels, Spec.Regular option c E₀)
    (harrow : ∀ st ∈ s, ∀ c ∈ st.group.channels, ¬ ContainsArrow c.id) {m : Str → Option ℂ}
    (h : CompoundSystem.evaluateTMatrix option K lib E₀ s (fun _ => none) = .ok (m, s')) {ε : ℝ} (hε : 0 < ε) :
    ∃ δ > 0, ∀ E, |E - E₀| < δ → ∀ s₁ : CompoundSystem, s₁.map GroupState.group = s.map GroupState.group →
      ∃ m' s₂, CompoundSystem.evaluateTMatrix option K lib E s₁ (fun _ => none) = .ok (m', s₂) ∧
        ∀ key, Spec.CloseElements ε (m' key) (m key) := by
  obtain ⟨δ, hδ, hall⟩ := system_continuousT hg hr harrow h hε
  refine ⟨δ, hδ, fun E hE s₁ hs₁ => ?_⟩
  obtain ⟨m', s₂, e, hcl⟩ := hall E hE s₁ hs₁ fun _ => none
  exact ⟨m', s₂, e, hcl fun _ => trivial⟩

open Example in
/-- C72 applies to the T-matrix of the example. -/
example (option : BoundaryOption) (lib : CoulombLibrary) (cache : MatrixCache group.channels.length) :
    ∃ m s', CompoundSystem.evaluateTMatrix option constants lib 2 [⟨group, cache⟩] (fun _ => none) = .ok (m, s') ∧
      ∀ ε > 0, ∃ δ > 0, ∀ E, |E - 2| < δ → ∃ m' s₂,
        CompoundSystem.evaluateTMatrix option constants lib E [⟨group, cache⟩] (fun _ => none) = .ok (m', s₂) ∧
          ∀ key, Spec.CloseElements ε (m' key) (m key) := by
  obtain ⟨⟨m, c⟩, e⟩ := (evaluates option lib cache (fun _ => none) (fun _ => none)).2
  have h : CompoundSystem.evaluateTMatrix option constants lib 2 [⟨group, cache⟩] (fun _ => none)
      = .ok (m, [⟨group, c⟩]) := evaluateTMatrix_cons_ok.mpr ⟨_, _, [], e, rfl, rfl⟩
  refine ⟨m, _, h, fun ε hε => ?_⟩
  obtain ⟨δ, hδ, hall⟩ := C72_t_matrix (by simpa using group_built)
    (by simpa using ThresholdExample.regular two_ne_zero) (by simpa using noArrow) h hε
  exact ⟨δ, hδ, fun E hE => hall E hE _ rfl⟩

end Verif
