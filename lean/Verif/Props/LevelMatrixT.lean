import Verif.Props.LevelMatrix
import Verif.Props.PerturbationT

/-!
# Property C111 for the T-matrix
-/

namespace Verif

open Filter Topology Complex

variable {option : BoundaryOption} {K : Constants} {lib : CoulombLibrary} {g : SpinGroup} {E₀ : ℝ}

/-- C111 for the T-matrix of a spin group: where one resonance without capture width has its energy there is
none, but close to it there is one, whatever was evaluated before, and its elements have limits, which are those
of the level matrix. -/
theorem C111_t_matrix (hg : g.Built) (hr : ∀ c ∈ g.channels, Spec.Regular option c E₀)
    (hn : ∀ c ∈ g.channels, NeutralAt E₀ c) (harrow : ∀ c ∈ g.channels, ¬ ContainsArrow c.id)
    (hwidths : ∀ r ∈ g.table.resonances, r.widths.length = g.channels.length)
    (hcross : Spec.Crossing g.channels g.table.resonances E₀) :
    ((∃ r ∈ g.table.resonances, r.energy = E₀ ∧ r.eliminated = 0) →
      ∀ cache result, ∀ v, g.evaluateTMatrix option K lib E₀ cache result ≠ .ok v) ∧
    ∃ P S : Fin g.channels.length → ℝ,
      (∀ i : Fin g.channels.length, g.channels[i].penetrability K lib E₀ = .ok (P i) ∧
        (option = .constant → g.channels[i].shiftFactor K lib E₀ = .ok (S i))) ∧
      (Spec.levelInverse option g.channels g.table.resonances E₀ P S).det ≠ 0 ∧
    ∀ ε > 0, ∃ δ > 0, ∀ E, E ≠ E₀ → |E - E₀| < δ → ∀ cache start, ∃ m cache',
      g.evaluateTMatrix option K lib E cache start = .ok (m, cache') ∧
      (∀ c c' : Fin g.channels.length, Spec.CloseElements ε (m (tMatrixKey g.channels[c].id g.channels[c'].id))
        (some (Spec.levelTMatrix option g.channels g.table.resonances E₀ P S c c'))) ∧
      ∀ key, (∀ c ∈ g.channels, ∀ c' ∈ g.channels, key ≠ tMatrixKey c.id c'.id) → m key = start key := by
  classical
  constructor
  · rintro ⟨r, hrm, hE⟩ cache result ⟨m, cache'⟩ h
    exact evaluateTMatrix_noPole h r hrm hE
  have hch : ∀ i : Fin g.channels.length, ∃ P S w phi,
      ContinuousChannel option K lib g.channels[i] E₀ P S w phi := fun i =>
    (hr _ (List.getElem_mem _)).continuous
      ((hn _ (List.getElem_mem _)).values (K := K) (lib := lib)).1.choose_spec.2
  choose P S w phi hch using hch
  have hv := fun i => (hch i).values.self_of_nhds
  have hpos : ∀ i, 0 < P i E₀ := by
    intro i
    obtain ⟨p, hp, h1⟩ := ((hn g.channels[i] (List.getElem_mem _)).values (K := K) (lib := lib)).1
    have := h1.symm.trans (hv i).1
    rw [← Except.ok.inj this]
    exact hp
  have hthr : ∀ c ∈ g.channels, ¬ Spec.AtThreshold c E₀ := fun c hc => (hn c hc).notThreshold
  have hdet : (Spec.levelInverse option g.channels g.table.resonances E₀ (fun c => P c E₀)
      (fun c => S c E₀)).det ≠ 0 :=
    levelInverse_regular (fun c => (hpos c).le) (fun c _ => hpos c) hcross
  obtain ⟨hdet', hT⟩ := levelTMatrix_continuous hthr hch hdet
  have hpole : ∀ᶠ E in 𝓝[≠] E₀, ∀ r ∈ g.table.resonances, ¬ (r.energy = E ∧ r.eliminated = 0) := by
    have : ∀ᶠ E in 𝓝[≠] E₀, ∀ r ∈ g.table.resonances.toFinset,
        ¬ (r.energy = E ∧ r.eliminated = 0) := by
      rw [Finset.eventually_all]
      intro r _
      by_cases he : r.energy = E₀
      · filter_upwards [self_mem_nhdsWithin] with E hE h
        exact hE (h.1.symm.trans he)
      · filter_upwards [(eventually_ne_nhds (Ne.symm he)).filter_mono nhdsWithin_le_nhds] with E hE h
        exact hE h.1.symm
    simpa using this
  have hvals := eventually_all.mpr fun c => (hch c).values
  refine ⟨fun c => P c E₀, fun c => S c E₀, fun i => ⟨(hv i).1, (hv i).2.1⟩, hdet, fun ε hε => ?_⟩
  have hclose : ∀ᶠ E in 𝓝 E₀, ∀ c c', ‖Spec.levelTMatrix option g.channels g.table.resonances E (fun c => P c E)
      (fun c => S c E) c c' - Spec.levelTMatrix option g.channels g.table.resonances E₀ (fun c => P c E₀)
      (fun c => S c E₀) c c'‖ < ε := by
    rw [eventually_all]
    intro c
    rw [eventually_all]
    intro c'
    simpa only [dist_eq_norm] using Metric.tendsto_nhds.mp (hT c c') ε hε
  obtain ⟨δ, hδ, hall⟩ := Metric.eventually_nhds_iff.mp
    ((eventually_nhdsWithin_iff.mp hpole).and (hdet'.and (hvals.and hclose)))
  refine ⟨δ, hδ, fun E hne hE cache start => ?_⟩
  obtain ⟨h3, h1, h2, h4⟩ := hall (by rw [Real.dist_eq]; exact hE)
  have h3 := h3 hne
  obtain ⟨⟨m, cache'⟩, e⟩ := evaluateTMatrix_succeeds (option := option) (g := g) (fun i => (h2 i).1)
    (fun ho i => (h2 i).2.1 ho) (fun i => (h2 i).2.2.2.2) hwidths h3 ((levelInverse_det h3).mp h1) cache start
  obtain ⟨P₂, S₂, hP₂, hS₂, -, -, -, hel, hrest⟩ := evaluateTMatrix_ok hg harrow e
  refine ⟨m, cache', e, fun c c' => ?_, hrest⟩
  have eP : P₂ = fun c => P c E := funext fun i => Except.ok.inj ((hP₂ i).symm.trans (h2 i).1)
  have eS : Spec.tMatrix option g.channels g.table.resonances E P₂ S₂
      = Spec.tMatrix option g.channels g.table.resonances E (fun c => P c E) fun c => S c E := by
    rw [eP]
    revert hS₂ h2
    clear * -
    cases option with
    | shiftFactor => exact fun _ _ => rfl
    | constant =>
      intro h2 hS₂
      have : S₂ = fun c => S c E := funext fun i => Except.ok.inj ((hS₂ rfl i).symm.trans ((h2 i).2.1 rfl))
      rw [this]
  rw [hel, eS, tMatrix_level h3 h1]
  exact h4 c c'

open Example in
/-- The example has no T-matrix at energy 5, but a limit of the element from elastic scattering to fission. -/
example (option : BoundaryOption) (lib : CoulombLibrary) (cache : MatrixCache group.channels.length) :
    (∀ v, group.evaluateTMatrix option constants lib 5 cache (fun _ => none) ≠ .ok v) ∧
    ∃ t : ℂ, ∀ ε > 0, ∃ δ > 0, ∀ E, E ≠ 5 → |E - 5| < δ → ∃ m cache',
      group.evaluateTMatrix option constants lib E cache (fun _ => none) = .ok (m, cache') ∧
        Spec.CloseElements ε (m (tMatrixKey elastic.id fission.id)) (some t) := by
  obtain ⟨h1, P, S, -, -, h2⟩ := C111_t_matrix (K := constants) (lib := lib) group_built
    (regular_five option) neutralAt_five noArrow widths crossing
  refine ⟨h1 ⟨⟨5, [1 / 4, 0, 1], 0⟩, List.mem_cons_of_mem _ List.mem_cons_self, rfl, rfl⟩ cache _,
    Spec.levelTMatrix option group.channels group.table.resonances 5 P S ⟨0, by decide⟩ ⟨2, by decide⟩,
    fun ε hε => ?_⟩
  obtain ⟨δ, hδ, h3⟩ := h2 ε hε
  refine ⟨δ, hδ, fun E hne hE => ?_⟩
  obtain ⟨m, c', h4, h5, -⟩ := h3 E hne hE cache fun _ => none
  exact ⟨m, c', h4, h5 ⟨0, by decide⟩ ⟨2, by decide⟩⟩

/-- As `C111_t_matrix`, for a map that has itself a limit. -/
theorem group_limitT (hg : g.Built) (hr : ∀ c ∈ g.channels, Spec.Regular option c E₀)
    (hn : ∀ c ∈ g.channels, NeutralAt E₀ c) (harrow : ∀ c ∈ g.channels, ¬ ContainsArrow c.id)
    (hwidths : ∀ r ∈ g.table.resonances, r.widths.length = g.channels.length)
    (hcross : Spec.Crossing g.channels g.table.resonances E₀) (start₀ : Str → Option ℂ) :
    ∃ M : Str → Option ℂ, ∀ ε > 0, ∃ δ > 0, ∀ E, E ≠ E₀ → |E - E₀| < δ → ∀ cache start, ∃ m cache',
      g.evaluateTMatrix option K lib E cache start = .ok (m, cache') ∧
      ((∀ key, Spec.CloseElements ε (start key) (start₀ key)) → ∀ key, Spec.CloseElements ε (m key) (M key)) := by
  classical
  obtain ⟨-, P, S, -, -, hlim⟩ := C111_t_matrix (K := K) (lib := lib) hg hr hn harrow hwidths hcross
  refine ⟨fun key => if h : ∃ p : Fin g.channels.length × Fin g.channels.length,
      key = tMatrixKey g.channels[p.1].id g.channels[p.2].id then
    some (Spec.levelTMatrix option g.channels g.table.resonances E₀ P S h.choose.1 h.choose.2) else start₀ key,
    fun ε hε => ?_⟩
  obtain ⟨δ, hδ, hall⟩ := hlim ε hε
  refine ⟨δ, hδ, fun E hne hE cache start => ?_⟩
  obtain ⟨m, cache', e, h1, h2⟩ := hall E hne hE cache start
  refine ⟨m, cache', e, fun hst key => ?_⟩
  beta_reduce
  by_cases h : ∃ p : Fin g.channels.length × Fin g.channels.length,
      key = tMatrixKey g.channels[p.1].id g.channels[p.2].id
  · rw [dif_pos h]
    have := h1 h.choose.1 h.choose.2
    rwa [← h.choose_spec] at this
  · rw [dif_neg h, h2 key]
    · exact hst key
    · intro c hc c' hc' hk
      obtain ⟨i, hi, rfl⟩ := List.getElem_of_mem hc
      obtain ⟨j, hj, rfl⟩ := List.getElem_of_mem hc'
      exact h ⟨(⟨i, hi⟩, ⟨j, hj⟩), hk⟩

theorem system_limitT {s : CompoundSystem} (hg : ∀ st ∈ s, st.group.Built)
    (hr : ∀ st ∈ s, ∀ c ∈ st.group.channels, Spec.Regular option c E₀)
    (hn : ∀ st ∈ s, ∀ c ∈ st.group.channels, NeutralAt E₀ c)
    (harrow : ∀ st ∈ s, ∀ c ∈ st.group.channels, ¬ ContainsArrow c.id)
    (hwidths : ∀ st ∈ s, ∀ r ∈ st.group.table.resonances, r.widths.length = st.group.channels.length)
    (hcross : ∀ st ∈ s, Spec.Crossing st.group.channels st.group.table.resonances E₀) (start₀ : Str → Option ℂ) :
    ∃ M : Str → Option ℂ, ∀ ε > 0, ∃ δ > 0, ∀ E, E ≠ E₀ → |E - E₀| < δ →
      ∀ s₁ : CompoundSystem, s₁.map GroupState.group = s.map GroupState.group → ∀ start,
        ∃ m s₂, CompoundSystem.evaluateTMatrix option K lib E s₁ start = .ok (m, s₂) ∧
          ((∀ key, Spec.CloseElements ε (start key) (start₀ key)) →
            ∀ key, Spec.CloseElements ε (m key) (M key)) := by
  induction s generalizing start₀ with
  | nil =>
    refine ⟨start₀, fun ε _ => ⟨1, one_pos, fun E _ _ s₁ hs₁ start => ?_⟩⟩
    obtain rfl := List.map_eq_nil_iff.mp hs₁
    exact ⟨start, [], rfl, fun h => h⟩
  | cons st rest ih =>
    have hm := List.mem_cons_self (a := st) (l := rest)
    obtain ⟨M₁, h1⟩ := group_limitT (K := K) (lib := lib) (hg st hm) (hr st hm) (hn st hm) (harrow st hm)
      (hwidths st hm) (hcross st hm) start₀
    obtain ⟨M, h2⟩ := ih (fun st hst => hg st (List.mem_cons_of_mem _ hst))
      (fun st hst => hr st (List.mem_cons_of_mem _ hst))
      (fun st hst => hn st (List.mem_cons_of_mem _ hst))
      (fun st hst => harrow st (List.mem_cons_of_mem _ hst))
      (fun st hst => hwidths st (List.mem_cons_of_mem _ hst))
      (fun st hst => hcross st (List.mem_cons_of_mem _ hst)) M₁
    refine ⟨M, fun ε hε => ?_⟩
    obtain ⟨δ₁, hδ₁, k1⟩ := h1 ε hε
    obtain ⟨δ₂, hδ₂, k2⟩ := h2 ε hε
    refine ⟨min δ₁ δ₂, lt_min hδ₁ hδ₂, fun E hne hE s₁ hs₁ start => ?_⟩
    cases s₁ with
    | nil => cases hs₁
    | cons st₁ rest₁ =>
      obtain ⟨g₁, cache₁⟩ := st₁
      simp only [List.map_cons, List.cons.injEq] at hs₁
      obtain ⟨rfl, hs₁⟩ := hs₁
      obtain ⟨m₁, c₁, e1, cl1⟩ := k1 E hne (hE.trans_le (min_le_left _ _)) cache₁ start
      obtain ⟨m, s₂, e2, cl2⟩ := k2 E hne (hE.trans_le (min_le_right _ _)) rest₁ hs₁ m₁
      exact ⟨m, _, evaluateTMatrix_cons_ok.mpr ⟨_, _, _, e1, e2, rfl⟩, fun h => cl2 (cl1 h)⟩

/-- C111 for the T-matrix of a compound system: it can be evaluated at all other energies close to that of a
resonance without capture width, and its elements have limits. -/
theorem C111_t_matrix_system {s : CompoundSystem} (hg : ∀ st ∈ s, st.group.Built)
    (hr : ∀ st ∈ s, ∀ c ∈ st.group.channels, Spec.Regular option c E₀)
    (hn : ∀ st ∈ s, ∀ c ∈ st.group.channels, NeutralAt E₀ c)
    (harrow : ∀ st ∈ s, ∀ c ∈ st.group.channels, ¬ ContainsArrow c.id)
    (hwidths : ∀ st ∈ s, ∀ r ∈ st.group.table.resonances, r.widths.length = st.group.channels.length)
    (hcross : ∀ st ∈ s, Spec.Crossing st.group.channels st.group.table.resonances E₀) :
    ∃ M : Str → Option ℂ, ∀ ε > 0, ∃ δ > 0, ∀ E, E ≠ E₀ → |E - E₀| < δ →
      ∀ s₁ : CompoundSystem, s₁.map GroupState.group = s.map GroupState.group →
        ∃ m s₂, CompoundSystem.evaluateTMatrix option K lib E s₁ (fun _ => none) = .ok (m, s₂) ∧
          ∀ key, Spec.CloseElements ε (m key) (M key) := by
  obtain ⟨M, h⟩ := system_limitT (K := K) (lib := lib) hg hr hn harrow hwidths hcross fun _ => none
  refine ⟨M, fun ε hε => ?_⟩
  obtain ⟨δ, hδ, hall⟩ := h ε hε
  refine ⟨δ, hδ, fun E hne hE s₁ hs₁ => ?_⟩
  obtain ⟨m, s₂, e, hcl⟩ := hall E hne hE s₁ hs₁ fun _ => none
  exact ⟨m, s₂, e, hcl fun _ => trivial⟩

open Example in
/-- The hypotheses can be met: two copies of the example. -/
example (option : BoundaryOption) (lib : CoulombLibrary) (cache : MatrixCache group.channels.length) :
    ∃ M : Str → Option ℂ, ∀ ε > 0, ∃ δ > 0, ∀ E, E ≠ 5 → |E - 5| < δ →
      ∃ m s₂, CompoundSystem.evaluateTMatrix option constants lib E [⟨group, cache⟩, ⟨group, cache⟩]
        (fun _ => none) = .ok (m, s₂) ∧ ∀ key, Spec.CloseElements ε (m key) (M key) := by
  obtain ⟨M, h⟩ := C111_t_matrix_system (option := option) (K := constants) (lib := lib) (E₀ := 5)
    (s := [⟨group, cache⟩, ⟨group, cache⟩]) (by simpa using group_built) (by simpa using regular_five option)
    (by simpa using neutralAt_five) (by simpa using noArrow) (by simpa using widths) (by simpa using crossing)
  refine ⟨M, fun ε hε => ?_⟩
  obtain ⟨δ, hδ, hall⟩ := h ε hε
  exact ⟨δ, hδ, fun E hne hE => hall E hne hE _ rfl⟩

end Verif
