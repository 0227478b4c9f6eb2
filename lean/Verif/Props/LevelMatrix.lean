import Verif.Lemmas.LevelMatrix
import Verif.Props.SpinGroupMore
import Verif.Lemmas.TMatrix
import Verif.Props.ContinuityRange

/-!
# Properties C110 and C111: the level matrix, and the energies of resonances without capture width
-/

namespace Verif

open Filter Topology Complex

section

variable {option : BoundaryOption} {K : Constants} {lib : CoulombLibrary} {g : SpinGroup} {E E₀ : ℝ}
  {cache cache' : MatrixCache g.channels.length}

/-! ## C110 -/

/-- C110: the cross sections of a spin group are those of the level matrix, which has one row for each
resonance, instead of the matrix with one row for each channel that the code inverts. -/
theorem C110_cross_sections (hg : g.Built) {result result' : CrossSectionMap}
    (h : g.evaluate option K lib E cache result = .ok (result', cache')) :
    ∃ P S w phi, Spec.Evaluable option K lib g.channels g.table.resonances E P S w phi ∧
      (Spec.levelInverse option g.channels g.table.resonances E P S).det ≠ 0 ∧
      ∀ id, result' id =
        if id ∈ g.channels.map Channel.reaction ∨ Spec.captureID g.channels = some id then
          some ((result id).getD 0 + Spec.contributionOf K g.channels E
            (Spec.levelTMatrix option g.channels g.table.resonances E P S) w phi id)
        else result id := by
  obtain ⟨P, S, w, phi, hev, hres⟩ := C53_documented_formulas hg h
  have hdet := (levelInverse_det hev.noPole).mpr hev.invertible
  refine ⟨P, S, w, phi, hev, hdet, fun id => ?_⟩
  rw [hres, contribution_eq, tMatrix_level hev.noPole hdet]

/-- C110 for the T-matrix. -/
theorem C110_t_matrix (hg : g.Built) (harrow : ∀ c ∈ g.channels, ¬ ContainsArrow c.id)
    {result result' : Str → Option ℂ}
    (h : g.evaluateTMatrix option K lib E cache result = .ok (result', cache')) :
    ∃ P S : Fin g.channels.length → ℝ,
      (∀ i : Fin g.channels.length, g.channels[i].penetrability K lib E = .ok (P i)) ∧
      (option = .constant →
        ∀ i : Fin g.channels.length, g.channels[i].shiftFactor K lib E = .ok (S i)) ∧
      (Spec.levelInverse option g.channels g.table.resonances E P S).det ≠ 0 ∧
      ∀ c c' : Fin g.channels.length, result' (tMatrixKey g.channels[c].id g.channels[c'].id)
        = some (Spec.levelTMatrix option g.channels g.table.resonances E P S c c') := by
  obtain ⟨P, S, hP, hS, -, -, hden, hT, -⟩ := evaluateTMatrix_ok hg harrow h
  have hpole : ∀ r ∈ g.table.resonances, ¬ (r.energy = E ∧ r.eliminated = 0) := by
    unfold SpinGroup.evaluateTMatrix at h
    rw [collect_ok.mpr hP] at h
    simp only [Bind.bind, Except.bind] at h
    split at h
    · cases h
    · cases hrl : rlmatrix option K lib g.channels g.table.resonances E P cache with
      | error e => rw [hrl] at h; cases h
      | ok c => exact fun r hr => (denominator_ne_zero r E).mp ((rlmatrix_ok.mp hrl).2.1 r hr)
  have hdet := (levelInverse_det hpole).mpr hden
  refine ⟨P, S, hP, hS, hdet, fun c c' => ?_⟩
  rw [hT, tMatrix_level hpole hdet]

/-! ## C111 -/

/-- The limit of the cross sections of a spin group at an energy. -/
theorem group_limit (hg : g.Built) (hr : ∀ c ∈ g.channels, Spec.Regular option c E₀)
    (hn : ∀ c ∈ g.channels, NeutralAt E₀ c)
    (hwidths : ∀ r ∈ g.table.resonances, r.widths.length = g.channels.length)
    (hcross : Spec.Crossing g.channels g.table.resonances E₀) {start : ℝ → CrossSectionMap}
    (hstart : ContinuousMaps start E₀) :
    ∃ P S w phi : Fin g.channels.length → ℝ,
      (∀ i : Fin g.channels.length, g.channels[i].penetrability K lib E₀ = .ok (P i) ∧
        (option = .constant → g.channels[i].shiftFactor K lib E₀ = .ok (S i)) ∧
        g.channels[i].coulombPhaseShift K E₀ = .ok (w i) ∧
        g.channels[i].phaseShift K lib E₀ = .ok (phi i)) ∧
      (Spec.levelInverse option g.channels g.table.resonances E₀ P S).det ≠ 0 ∧
    ∃ σ : ℝ → CrossSectionMap, ContinuousMaps σ E₀ ∧
      (∀ id, σ E₀ id =
        if id ∈ g.channels.map Channel.reaction ∨ Spec.captureID g.channels = some id then
          some ((start E₀ id).getD 0 + Spec.contributionOf K g.channels E₀
            (Spec.levelTMatrix option g.channels g.table.resonances E₀ P S) w phi id)
        else start E₀ id) ∧
      ∀ᶠ E in 𝓝[≠] E₀, ∀ cache, ∃ cache',
        g.evaluate option K lib E cache (start E) = .ok (σ E, cache') := by
  classical
  have hch : ∀ i : Fin g.channels.length, ∃ P S w phi,
      ContinuousChannel option K lib g.channels[i] E₀ P S w phi := fun i =>
    (hr _ (List.getElem_mem _)).continuous
      ((hn _ (List.getElem_mem _)).values (K := K) (lib := lib)).1.choose_spec.2
  choose P S w phi hch using hch
  have hv := fun i => (hch i).values.self_of_nhds
  have hpos : ∀ i, 0 < P i E₀ := by
    intro i
    obtain ⟨p, hp, h1⟩ := ((hn g.channels[i] (List.getElem_mem _)).values (K := K) (lib := lib)).1
    have := h1.symm.trans (hv i).1
    rw [← Except.ok.inj this]
    exact hp
  have hthr : ∀ c ∈ g.channels, ¬ Spec.AtThreshold c E₀ := fun c hc => (hn c hc).notThreshold
  have hdet : (Spec.levelInverse option g.channels g.table.resonances E₀ (fun c => P c E₀)
      (fun c => S c E₀)).det ≠ 0 :=
    levelInverse_regular (fun c => (hpos c).le) (fun c _ => hpos c) hcross
  obtain ⟨hdet', hT⟩ := levelTMatrix_continuous hthr hch hdet
  have hk : ∃ c, g.channels.find? Channel.isIncident = some c ∧ c.waveNumber K E₀ ≠ 0 := by
    obtain ⟨c, hc, hinc⟩ := ((C24_accepted _ _).mp ⟨g, hg⟩).hasIncident
    cases hf : g.channels.find? Channel.isIncident with
    | none =>
      have := List.find?_eq_none.mp hf c hc
      simp [Channel.isIncident, hinc] at this
    | some d =>
      have hd := hn d (List.mem_of_find?_eq_some hf)
      refine ⟨d, rfl, (waveNumber_pos (hd.mass (Or.inr ?_)) hd.notThreshold).ne'⟩
      have := List.find?_some hf
      simpa [Channel.isIncident] using this
  have hcont : ∀ id, ContinuousAt (fun E => Spec.contributionOf K g.channels E
      (Spec.levelTMatrix option g.channels g.table.resonances E (fun c => P c E) (fun c => S c E))
      (fun c => w c E) (fun c => phi c E) id) E₀ := by
    intro id
    have hfac := incidentFactor_continuous hk
    have hp := partial_continuous hT (fun c => (hch c).coulomb) (fun c => (hch c).phase)
    have hc := capture_continuous (w := w) (phi := phi) hT
    simp only [Spec.contributionOf]
    refine tendsto_finsetSum _ fun c _ => ?_
    split
    · refine Tendsto.add (tendsto_finsetSum _ fun c' _ => ?_) ?_
      · split
        · exact hfac.mul (hp c c')
        · exact tendsto_const_nhds
      · split
        · exact hfac.mul (hc c)
        · exact tendsto_const_nhds
    · exact tendsto_const_nhds
  have hnear : ∀ᶠ E in 𝓝[≠] E₀, Spec.Evaluable option K lib g.channels g.table.resonances E
      (fun c => P c E) (fun c => S c E) (fun c => w c E) (fun c => phi c E) := by
    obtain ⟨c, hc, hkc⟩ := hk
    have hpole : ∀ᶠ E in 𝓝[≠] E₀, ∀ r ∈ g.table.resonances, ¬ (r.energy = E ∧ r.eliminated = 0) := by
      have : ∀ᶠ E in 𝓝[≠] E₀, ∀ r ∈ g.table.resonances.toFinset,
          ¬ (r.energy = E ∧ r.eliminated = 0) := by
        rw [Finset.eventually_all]
        intro r _
        by_cases he : r.energy = E₀
        · filter_upwards [self_mem_nhdsWithin] with E hE h
          exact hE (h.1.symm.trans he)
        · filter_upwards [(eventually_ne_nhds (Ne.symm he)).filter_mono nhdsWithin_le_nhds] with E hE h
          exact hE h.1.symm
      simpa using this
    have hvals := eventually_all.mpr fun c => (hch c).values
    filter_upwards [hdet'.filter_mono nhdsWithin_le_nhds, hvals.filter_mono nhdsWithin_le_nhds, hpole,
      ((waveNumber_continuous K c).continuousAt.eventually_ne hkc).filter_mono nhdsWithin_le_nhds]
      with E h1 h2 h3 h4
    exact ⟨fun i => (h2 i).1, fun ho i => (h2 i).2.1 ho, fun i => (h2 i).2.2.1,
      fun i => (h2 i).2.2.2.1, fun i => (h2 i).2.2.2.2, hwidths, h3, (levelInverse_det h3).mp h1, c, hc, h4⟩
  refine ⟨fun c => P c E₀, fun c => S c E₀, fun c => w c E₀, fun c => phi c E₀,
    fun i => ⟨(hv i).1, (hv i).2.1, (hv i).2.2.1, (hv i).2.2.2.1⟩, hdet,
    fun E id => if id ∈ g.channels.map Channel.reaction ∨ Spec.captureID g.channels = some id then
      some ((start E id).getD 0 + Spec.contributionOf K g.channels E
        (Spec.levelTMatrix option g.channels g.table.resonances E (fun c => P c E) (fun c => S c E))
        (fun c => w c E) (fun c => phi c E) id) else start E id, ⟨?_, ?_, ?_⟩, fun id => rfl, ?_⟩
  · obtain ⟨ids, hids⟩ := hstart.support
    refine ⟨ids ++ g.reactions, fun E id hid => ?_⟩
    obtain ⟨-, first, rest, h2, h3, -⟩ := hg.incident
    rw [List.mem_append, not_or, h3, List.mem_append, List.mem_singleton] at hid
    rw [if_neg]
    · exact hids E id hid.1
    · rw [captureID_eq h2, Option.some.injEq, eq_comm (b := id)]
      exact hid.2
  · intro id E
    by_cases hid : id ∈ g.channels.map Channel.reaction ∨ Spec.captureID g.channels = some id
    · simp only [if_pos hid, Option.isSome_some]
    · simp only [if_neg hid]
      exact hstart.isSome id E
  · intro id
    by_cases hid : id ∈ g.channels.map Channel.reaction ∨ Spec.captureID g.channels = some id
    · simp only [if_pos hid, Option.getD_some]
      exact (hstart.continuous id).add (hcont id)
    · simp only [if_neg hid]
      exact hstart.continuous id
  · filter_upwards [hnear] with E hE cache
    obtain ⟨⟨m', cache'⟩, h'⟩ := evaluate_ok_of hg hE cache (start E)
    obtain ⟨P', S', w', phi', hev'', hres'⟩ := C53_documented_formulas hg h'
    refine ⟨cache', ?_⟩
    rw [h']
    congr 2
    funext id
    rw [hres' id, Evaluable_contribution hev'' hE, contribution_eq,
      tMatrix_level hE.noPole ((levelInverse_det hE.noPole).mpr hE.invertible)]

/-- C111 for a spin group: where one resonance without capture width has its energy there are no cross
sections, but close to it there are, whatever was evaluated before, and they have a limit, which is given by
the level matrix. -/
theorem C111_spin_group (hg : g.Built) (hr : ∀ c ∈ g.channels, Spec.Regular option c E₀)
    (hn : ∀ c ∈ g.channels, NeutralAt E₀ c)
    (hwidths : ∀ r ∈ g.table.resonances, r.widths.length = g.channels.length)
    (hcross : Spec.Crossing g.channels g.table.resonances E₀) :
    ((∃ r ∈ g.table.resonances, r.energy = E₀ ∧ r.eliminated = 0) →
      ∀ cache result, ∀ v, g.evaluate option K lib E₀ cache result ≠ .ok v) ∧
    ∃ P S w phi : Fin g.channels.length → ℝ,
      (∀ i : Fin g.channels.length, g.channels[i].penetrability K lib E₀ = .ok (P i) ∧
        (option = .constant → g.channels[i].shiftFactor K lib E₀ = .ok (S i)) ∧
        g.channels[i].coulombPhaseShift K E₀ = .ok (w i) ∧
        g.channels[i].phaseShift K lib E₀ = .ok (phi i)) ∧
      (Spec.levelInverse option g.channels g.table.resonances E₀ P S).det ≠ 0 ∧
    ∀ ε > 0, ∃ δ > 0, ∀ E, E ≠ E₀ → |E - E₀| < δ → ∀ cache, ∃ m cache',
      g.evaluate option K lib E cache (fun _ => none) = .ok (m, cache') ∧
      ∀ id, Spec.Close ε (m id)
        (if id ∈ g.channels.map Channel.reaction ∨ Spec.captureID g.channels = some id then
          some (Spec.contributionOf K g.channels E₀
            (Spec.levelTMatrix option g.channels g.table.resonances E₀ P S) w phi id)
        else none) := by
  constructor
  · rintro ⟨r, hrm, hE⟩ cache result ⟨m, cache'⟩ h
    obtain ⟨P, S, w, phi, hev, -⟩ := C53_documented_formulas hg h
    exact hev.noPole r hrm hE
  · obtain ⟨P, S, w, phi, hv, hdet, σ, hσ, hσ₀, hnear⟩ := group_limit (K := K) (lib := lib)
      (start := fun _ _ => none) hg hr hn hwidths hcross
      ⟨⟨[], fun _ _ _ => rfl⟩, fun _ _ => rfl, fun _ => continuousAt_const⟩
    refine ⟨P, S, w, phi, hv, hdet, fun ε hε => ?_⟩
    obtain ⟨δ, hδ, hall⟩ := Metric.eventually_nhds_iff.mp
      ((eventually_nhdsWithin_iff.mp hnear).and (hσ.close hε))
    refine ⟨δ, hδ, fun E hne hE cache => ?_⟩
    obtain ⟨h1, h2⟩ := hall (by rw [Real.dist_eq]; exact hE)
    obtain ⟨c, hc⟩ := h1 hne cache
    refine ⟨_, _, hc, fun id => ?_⟩
    have := h2 id
    rw [hσ₀ id] at this
    simpa using this

/-- A compound system, for a map that is itself a function of the energy. -/
theorem system_limit {s : CompoundSystem} (hg : ∀ st ∈ s, st.group.Built)
    (hr : ∀ st ∈ s, ∀ c ∈ st.group.channels, Spec.Regular option c E₀)
    (hn : ∀ st ∈ s, ∀ c ∈ st.group.channels, NeutralAt E₀ c)
    (hwidths : ∀ st ∈ s, ∀ r ∈ st.group.table.resonances, r.widths.length = st.group.channels.length)
    (hcross : ∀ st ∈ s, Spec.Crossing st.group.channels st.group.table.resonances E₀)
    {start : ℝ → CrossSectionMap} (hstart : ContinuousMaps start E₀) :
    ∃ σ : ℝ → CrossSectionMap, ContinuousMaps σ E₀ ∧
      ∀ᶠ E in 𝓝[≠] E₀, ∀ s₁ : CompoundSystem, s₁.map GroupState.group = s.map GroupState.group →
        ∃ s₂, CompoundSystem.evaluate option K lib E s₁ (start E) = .ok (σ E, s₂) := by
  induction s generalizing start with
  | nil =>
    refine ⟨start, hstart, Eventually.of_forall fun E s₁ hs₁ => ?_⟩
    obtain rfl := List.map_eq_nil_iff.mp hs₁
    exact ⟨[], rfl⟩
  | cons st rest ih =>
    have hm := List.mem_cons_self (a := st) (l := rest)
    obtain ⟨-, -, -, -, -, -, σ, hσ, -, hnear⟩ := group_limit (K := K) (lib := lib) (hg st hm) (hr st hm)
      (hn st hm) (hwidths st hm) (hcross st hm) hstart
    obtain ⟨τ, hτ, hnear'⟩ := ih (fun st hst => hg st (List.mem_cons_of_mem _ hst))
      (fun st hst => hr st (List.mem_cons_of_mem _ hst))
      (fun st hst => hn st (List.mem_cons_of_mem _ hst))
      (fun st hst => hwidths st (List.mem_cons_of_mem _ hst))
      (fun st hst => hcross st (List.mem_cons_of_mem _ hst)) hσ
    refine ⟨τ, hτ, ?_⟩
    filter_upwards [hnear, hnear'] with E h3 h4 s₁ hs₁
    cases s₁ with
    | nil => cases hs₁
    | cons st₁ rest₁ =>
      obtain ⟨g₁, cache₁⟩ := st₁
      simp only [List.map_cons, List.cons.injEq] at hs₁
      obtain ⟨rfl, hs₁⟩ := hs₁
      obtain ⟨c', h5⟩ := h3 cache₁
      obtain ⟨s₂, h6⟩ := h4 rest₁ hs₁
      exact ⟨_, evaluate_cons_ok.mpr ⟨_, _, _, h5, h6, rfl⟩⟩

/-- C111 for a compound system. -/
theorem C111_system {s : CompoundSystem} (hg : ∀ st ∈ s, st.group.Built)
    (hr : ∀ st ∈ s, ∀ c ∈ st.group.channels, Spec.Regular option c E₀)
    (hn : ∀ st ∈ s, ∀ c ∈ st.group.channels, NeutralAt E₀ c)
    (hwidths : ∀ st ∈ s, ∀ r ∈ st.group.table.resonances, r.widths.length = st.group.channels.length)
    (hcross : ∀ st ∈ s, Spec.Crossing st.group.channels st.group.table.resonances E₀) :
    ∃ m₀ : CrossSectionMap, ∀ ε > 0, ∃ δ > 0, ∀ E, E ≠ E₀ → |E - E₀| < δ → ∀ s₁ : CompoundSystem,
      s₁.map GroupState.group = s.map GroupState.group → ∃ m s₂,
        CompoundSystem.evaluate option K lib E s₁ (fun _ => none) = .ok (m, s₂) ∧
        ∀ id, Spec.Close ε (m id) (m₀ id) := by
  obtain ⟨σ, hσ, hnear⟩ := system_limit (K := K) (lib := lib) (start := fun _ _ => none) hg hr hn hwidths hcross
    ⟨⟨[], fun _ _ _ => rfl⟩, fun _ _ => rfl, fun _ => continuousAt_const⟩
  refine ⟨σ E₀, fun ε hε => ?_⟩
  obtain ⟨δ, hδ, hall⟩ := Metric.eventually_nhds_iff.mp
    ((eventually_nhdsWithin_iff.mp hnear).and (hσ.close hε))
  refine ⟨δ, hδ, fun E hne hE s₁ hs₁ => ?_⟩
  obtain ⟨h1, h2⟩ := hall (by rw [Real.dist_eq]; exact hE)
  obtain ⟨c, hc⟩ := h1 hne s₁ hs₁
  exact ⟨_, _, hc, h2⟩

end

/-! ## Examples -/

namespace Example

/-- The example can be evaluated at energy 2, and C110 applies to it. -/
example (option : BoundaryOption) (lib : CoulombLibrary) (cache : MatrixCache group.channels.length) :
    ∃ r c P S w phi, group.evaluate option constants lib 2 cache (fun _ => none) = .ok (r, c) ∧
      (Spec.levelInverse option group.channels group.table.resonances 2 P S).det ≠ 0 ∧
      r (.elastic "n,T".toList) = some (Spec.contributionOf constants group.channels 2
        (Spec.levelTMatrix option group.channels group.table.resonances 2 P S) w phi
          (.elastic "n,T".toList)) := by
  obtain ⟨⟨r, c⟩, h⟩ := (evaluates option lib cache (fun _ => none) (fun _ => none)).1
  obtain ⟨P, S, w, phi, -, hdet, hres⟩ := C110_cross_sections group_built h
  refine ⟨r, c, P, S, w, phi, h, hdet, ?_⟩
  rw [hres, if_pos (Or.inl _)]
  · simp
  · exact List.mem_map.mpr ⟨elastic, List.mem_cons_self, rfl⟩

/-- At energy 5 the example has a resonance without eliminated width, with widths in open channels. -/
theorem crossing : Spec.Crossing group.channels group.table.resonances 5 := by
  have hlen : group.table.resonances.length = 2 := rfl
  constructor
  · have h0 : ∀ i : Fin 2, resonances[i].energy = 5 ∧ resonances[i].eliminated = 0 → i = 1 := by
      intro i hi
      fin_cases i
      · norm_num [resonances] at hi
      · rfl
    intro i j hi hj
    exact (h0 i hi).trans (h0 j hj).symm
  · intro r hr
    have hr' : r ∈ resonances := hr
    simp only [resonances, List.mem_cons, List.not_mem_nil, or_false] at hr'
    rcases hr' with rfl | rfl
    · norm_num
    · refine fun _ => ⟨(0 : Fin 3), ?_⟩
      have hb : ¬ elastic.belowThreshold 5 := by
        norm_num [Channel.belowThreshold, elastic, makeChannel, pair]
      have : Spec.amplitude group.channels 5 ⟨5, [1 / 4, 0, 1], 0⟩ (0 : Fin 3) = 1 / 4 := if_neg hb
      rw [this]
      norm_num

theorem neutralAt_five : ∀ c ∈ group.channels, NeutralAt 5 c := by
  intro c hc
  have hc' : c ∈ channels := hc
  simp only [channels, List.mem_cons, List.not_mem_nil, or_false] at hc'
  rcases hc' with rfl | rfl | rfl
  · exact ⟨by decide, fun _ => by decide, fun _ => by norm_num [elastic, makeChannel, pair],
      by norm_num [elastic, makeChannel, pair], ⟨1, one_pos, rfl⟩, ⟨1, rfl⟩, ⟨1, rfl⟩⟩
  · exact ⟨by decide, fun _ => by decide, fun _ => by norm_num [inelastic, makeChannel, excited],
      by norm_num [inelastic, makeChannel, pair], ⟨1, one_pos, rfl⟩, ⟨1, rfl⟩, ⟨1, rfl⟩⟩
  · exact ⟨by decide, fun h => absurd h (by decide),
      fun _ => by norm_num [fission, makeChannel, fissionPair],
      by norm_num [fission, makeChannel, pair], ⟨1, one_pos, rfl⟩, ⟨1, rfl⟩, ⟨1, rfl⟩⟩

theorem regular_five (option : BoundaryOption) : ∀ c ∈ group.channels, Spec.Regular option c 5 := by
  intro c hc
  have hn := neutralAt_five c hc
  have hrad : c.radii = radii := by
    have hc' : c ∈ channels := hc
    simp only [channels, List.mem_cons, List.not_mem_nil, or_false] at hc'
    rcases hc' with rfl | rfl | rfl <;> rfl
  have hcont : Spec.ContinuousRadius (fun _ => .ok 1) 5 :=
    ⟨fun _ => 1, continuousAt_const, Eventually.of_forall fun _ => rfl⟩
  refine ⟨hn.notCharged, hrad ▸ hcont, fun _ => Eventually.of_forall fun E a ha => ?_, hrad ▸ hcont,
    hrad ▸ hcont, fun h => absurd h hn.notThreshold⟩
  rw [hrad] at ha
  have : (1 : ℝ) = a := Except.ok.inj ha
  rw [← this]
  exact zero_le_one

/-- The example has no cross sections at energy 5, but a limit of the elastic one. -/
example (option : BoundaryOption) (lib : CoulombLibrary) (cache : MatrixCache group.channels.length) :
    (∀ v, group.evaluate option constants lib 5 cache (fun _ => none) ≠ .ok v) ∧
    ∃ σ : ℝ, ∀ ε > 0, ∃ δ > 0, ∀ E, E ≠ 5 → |E - 5| < δ → ∃ m cache' x,
      group.evaluate option constants lib E cache (fun _ => none) = .ok (m, cache') ∧
        m (.elastic "n,T".toList) = some x ∧ |x - σ| < ε := by
  obtain ⟨h1, P, S, w, phi, -, -, h2⟩ := C111_spin_group (K := constants) (lib := lib) group_built
    (regular_five option) neutralAt_five widths crossing
  refine ⟨h1 ⟨⟨5, [1 / 4, 0, 1], 0⟩, List.mem_cons_of_mem _ List.mem_cons_self, rfl, rfl⟩ cache _,
    Spec.contributionOf constants group.channels 5
      (Spec.levelTMatrix option group.channels group.table.resonances 5 P S) w phi (.elastic "n,T".toList),
    fun ε hε => ?_⟩
  obtain ⟨δ, hδ, h3⟩ := h2 ε hε
  refine ⟨δ, hδ, fun E hne hE => ?_⟩
  obtain ⟨m, c', h4, h5⟩ := h3 E hne hE cache
  have h6 := h5 (.elastic "n,T".toList)
  have hmem : ReactionID.elastic "n,T".toList ∈ group.channels.map Channel.reaction :=
    List.mem_map.mpr ⟨elastic, List.mem_cons_self, rfl⟩
  rw [if_pos (Or.inl hmem)] at h6
  cases hm : m (.elastic "n,T".toList) with
  | none => rw [hm] at h6; exact h6.elim
  | some x =>
    rw [hm] at h6
    exact ⟨m, c', x, h4, hm, h6⟩

end Example

end Verif
