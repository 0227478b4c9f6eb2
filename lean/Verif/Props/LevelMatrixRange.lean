import Verif.Props.LevelMatrix

/-!
# Property C111 for Reich-Moore ranges
-/

namespace Verif

open Filter Topology

variable {K : Constants} {lib : CoulombLibrary} {E₀ : ℝ}

/-- What a reconstructor of a compound system returns inside its range. -/
theorem call_variant {option : BoundaryOption} {R : Reconstructor} {s : CompoundSystem}
    (hs : R.system = variantOf option s) {E : ℝ} (hE : R.lower ≤ E ∧ E ≤ R.upper) (m : ReactionMap)
    (R' : Reconstructor) : R.call K lib E = .ok (m, R') ↔
      ∃ m₁ s', CompoundSystem.evaluate option K lib E s (fun _ => none) = .ok (m₁, s') ∧
        m = .ofCrossSections m₁ ∧ R' = { R with system := variantOf option s' } := by
  unfold Reconstructor.call
  rw [if_pos (by exact hE), hs]
  cases option <;> unfold variantOf SystemVariant.evaluate <;>
  · simp only [Bind.bind, Except.bind]
    cases h1 : CompoundSystem.evaluate _ K lib E s fun _ => none with
    | error e => simp
    | ok v =>
      obtain ⟨m₁, s₁⟩ := v
      simp only [pure, Except.pure, Except.ok.injEq, Prod.mk.injEq]
      constructor
      · rintro ⟨rfl, rfl⟩
        exact ⟨_, _, ⟨rfl, rfl⟩, rfl, rfl⟩
      · rintro ⟨_, _, ⟨rfl, rfl⟩, rfl, rfl⟩
        exact ⟨rfl, rfl⟩

/-- C111 for a reconstructor of a compound system, at the energies inside its range. -/
theorem C111_reconstructor {option : BoundaryOption} {R : Reconstructor} {s : CompoundSystem}
    (hs : R.system = variantOf option s)
    (hg : ∀ st ∈ s, st.group.Built)
    (hr : ∀ st ∈ s, ∀ c ∈ st.group.channels, Spec.Regular option c E₀)
    (hn : ∀ st ∈ s, ∀ c ∈ st.group.channels, NeutralAt E₀ c)
    (hwidths : ∀ st ∈ s, ∀ r ∈ st.group.table.resonances, r.widths.length = st.group.channels.length)
    (hcross : ∀ st ∈ s, Spec.Crossing st.group.channels st.group.table.resonances E₀)
    (hE : R.lower < E₀ ∧ E₀ < R.upper) :
    ∃ m₀ : ReactionMap, ∀ ε > 0, ∃ δ > 0, ∀ E, E ≠ E₀ → |E - E₀| < δ →
      ∃ m R', R.call K lib E = .ok (m, R') ∧ ∀ id, Spec.Close ε (m id) (m₀ id) := by
  obtain ⟨m₀, h⟩ := C111_system (K := K) (lib := lib) hg hr hn hwidths hcross
  refine ⟨.ofCrossSections m₀, fun ε hε => ?_⟩
  obtain ⟨δ, hδ, h2⟩ := h ε hε
  refine ⟨min δ (min (E₀ - R.lower) (R.upper - E₀)), by
    refine lt_min hδ (lt_min ?_ ?_) <;> linarith [hE.1, hE.2], fun E hne hE' => ?_⟩
  obtain ⟨h3, h4⟩ := lt_min_iff.mp hE'
  obtain ⟨h5, h6⟩ := lt_min_iff.mp h4
  rw [abs_lt] at h5 h6
  obtain ⟨m', s₂, h7, h8⟩ := h2 E hne h3 s rfl
  refine ⟨_, _, (call_variant hs ⟨by linarith [h5.1], by linarith [h6.2]⟩ _ _).mpr
    ⟨m', s₂, h7, rfl, rfl⟩, ?_⟩
  rintro (id | id)
  · exact h8 id
  · trivial

namespace Endf

open Spec Blocks

variable {tables : InterpolationLibrary}
  {initialBreitWigner : Channel → Verif.BreitWigner.Cache} {neutronMass A : ℝ} {incident target : Str}
  {reactions : ReactionLibrary} {initial : (g : SpinGroup) → MatrixCache g.channels.length}
  {elementaryCharge : ℝ} {range : Range} {p : ReichMoore} {s : CompoundSystem}
  {nro : Option (ℝ → Outcome ℝ)} {naps : ℤ}

theorem toElasticWidth_ne_zero {value P w : ℝ} (hv : value ≠ 0) (hP : 0 < P)
    (h : toElasticWidth value P = .ok w) : w ≠ 0 := by
  obtain ⟨-, -, rfl⟩ := toElasticWidth_ok h
  have : 0 < |value| := abs_pos.mpr hv
  refine mul_ne_zero (by split <;> norm_num) (Real.sqrt_pos.mpr (by positivity)).ne'

/-- The resonances of the spin groups of a Reich-Moore evaluation differ in energy, and those with a neutron
width have a width in an open channel. -/
theorem reichMoore_crossing (h : PhysicalReichMoore neutronMass A nro naps p)
    (hs : makeReichMooreCompoundSystem K lib initial neutronMass incident target nro naps p = .ok s)
    (hE : 0 < E₀)
    (hn : ∀ st ∈ s, ∀ c ∈ st.group.channels, NeutralAt E₀ c)
    (hneutron : ∀ lv ∈ p.lValues, ∀ r ∈ lv.resonances, r.energy = E₀ → r.gammaWidth = 0 →
      r.neutronWidth ≠ 0) :
    ∀ st ∈ s, Crossing st.group.channels st.group.table.resonances E₀ := by
  have hopen : ∀ st ∈ s, ∀ c ∈ st.group.channels, ¬ c.belowThreshold E₀ := by
    intro st hst c hc
    obtain ⟨-, c2, c3, -⟩ := (reichMoore_channels h hs st hst).2 c hc
    unfold Channel.belowThreshold
    rw [c2, add_zero]
    exact not_lt.mpr (mul_pos c3 hE).le
  obtain ⟨blocks, pair, radii, remaining, consolidated, hL, h4, h5⟩ := Layout.of_system h.spin h.ratio hs
  have hall := hL.all h.spin h.ratio
  obtain ⟨dk, dc⟩ := data_cells fun b hb => (hall b hb).2.1
  have hgood : ∀ c ∈ (blocks ++ remaining.map (emptyBlock A pair radii)).map (Block.cell K lib), c.Good := by
    intro c hc
    obtain ⟨b, -, rfl⟩ := List.mem_map.mp hc
    exact b.cell_good
  have hnd := fun x => hL.nodup h.different (fun b hb => (hall b hb).1) x
  obtain ⟨jpis, -, j2, j3⟩ := system_groups dk (by
      intro d hd
      obtain ⟨b, hb, hd⟩ := List.mem_flatMap.mp hd
      exact (hall b hb).2.1.lengths d hd) (by
      intro c hc
      obtain ⟨b, hb, rfl⟩ := List.mem_map.mp hc
      exact (Block.cell_jpi (hall b hb).1).2) hgood dc hnd h4 h5
  intro st hst
  obtain ⟨x, -, hb, -, hch, hR⟩ := forall₂_mem_right j3 hst
  have hst' := hn st hst
  have hopen' := hopen st hst
  constructor
  · intro i j hi hj
    have hd := hR.energies.nodup_iff.mpr (hnd x)
    have := List.nodup_iff_injective_getElem.mp hd
    have e : (⟨i, by simp⟩ : Fin (st.group.table.resonances.map Resonance.energy).length)
        = ⟨j, by simp⟩ := by
      apply this
      simp only [List.getElem_map]
      exact hi.1.trans hj.1.symm
    simpa [Fin.ext_iff] using e
  · rintro r hr ⟨rE, r0⟩
    have hmem := hR.energies.subset (List.mem_map_of_mem hr)
    obtain ⟨row, hrow, e⟩ := List.mem_map.mp hmem
    obtain ⟨c, hc, hrow⟩ := List.mem_flatMap.mp hrow
    obtain ⟨k, rfl⟩ := List.mem_iff_get.mp hc
    obtain ⟨h1, h2⟩ := hR.widths r hr k row hrow e.symm
    obtain ⟨hcm, -⟩ := mem_cellsOf.mp hc
    obtain ⟨b, hbm, e2⟩ := List.mem_map.mp hcm
    obtain ⟨i, hi⟩ := mem_range_tagOf.mpr (show (k, (0 : Fin 3)).2 ∈ _ from
      (hgood _ hcm).elastic)
    have hi0 := channel_tagOf _ i
    rw [hi] at hi0
    have hmemi : (channelsOf (cellsOf ((blocks ++ remaining.map (emptyBlock A pair radii)).map
        (Block.cell K lib)) x))[i] ∈ st.group.channels := by
      rw [hch]
      exact List.getElem_mem _
    have hw := h2 i
    rw [hi, if_pos rfl] at hw
    -- the width of the row
    have hwne : row.width 0 ≠ 0 := by
      obtain ⟨q, hq, hqv⟩ := ((hst' _ hmemi).values (K := K) (lib := lib)).1
      rw [hi0] at hqv
      simp only at hqv
      rw [← e2] at hrow hqv
      obtain ⟨r', hr', rfl⟩ := List.mem_map.mp hrow
      have hr'' := (List.mem_filter.mp hr').1
      have hbm' : b ∈ blocks := by
        rcases List.mem_append.mp hbm with hb | hb
        · exact hb
        · obtain ⟨n, -, rfl⟩ := List.mem_map.mp hb
          cases hr''
      have hE' : r'.energy = E₀ := e.trans rE
      have hnw := hneutron _ (Block.lvalue_mem hL.groups hbm').1 r' hr'' hE'
        (toOtherWidth_eq_zero.mp (h1.symm.trans r0))
      show b.elasticWidth K lib r' ≠ 0
      unfold Block.elasticWidth
      rw [hE', show (elasticChannel b.pair b.radii b.numbers).penetrability K lib E₀ = .ok q from hqv]
      obtain ⟨w, hw⟩ := toElasticWidth_exists (value := r'.neutronWidth) hq
      show okValue (toElasticWidth r'.neutronWidth q) ≠ 0
      rw [okValue_ok hw]
      exact toElasticWidth_ne_zero hnw hq hw
    have key : ∀ channels : List Channel, channels = channelsOf (cellsOf ((blocks ++
        remaining.map (emptyBlock A pair radii)).map (Block.cell K lib)) x) →
        (∀ c ∈ channels, ¬ c.belowThreshold E₀) → ∃ c, amplitude channels E₀ r c ≠ 0 := by
      rintro _ rfl ho
      refine ⟨i, ?_⟩
      have : amplitude (channelsOf (cellsOf ((blocks ++ remaining.map (emptyBlock A pair radii)).map
          (Block.cell K lib)) x)) E₀ r i = r.width i := if_neg (ho _ (List.getElem_mem _))
      rw [this, hw]
      exact hwne
    exact key _ hch hopen'

/-- C111 for Reich-Moore ranges: at a positive energy inside a range that makes sense physically, around which
its radii are continuous, the range has no cross sections if it has a resonance without capture width at this
energy, but close to the energy it has, and they have a limit; only the resonances at this energy must have
a neutron width if they have no capture width. -/
theorem C111_reich_moore (ht : range.type = 1 ∧ range.representation = 3)
    (hp : range.parameters = .reichMoore p)
    (hr : Option.Rel (IsRadiusTable tables) range.scatteringRadius nro)
    (h : PhysicalReichMoore neutronMass A nro range.naps p) :
    ∃ R, fromENDF K lib tables reactions initialBreitWigner initial neutronMass elementaryCharge incident
        target range = .ok R ∧
      ∀ E₀ > 0, range.lower < E₀ ∧ E₀ < range.upper →
        RadiiAround neutronMass A nro range.naps p.ap E₀ →
        (∀ lv ∈ p.lValues, RadiiAround neutronMass A nro range.naps (lengthOf p lv) E₀) →
        (∀ lv ∈ p.lValues, ∀ r ∈ lv.resonances, r.energy = E₀ → r.gammaWidth = 0 → r.neutronWidth ≠ 0) →
        ((∃ lv ∈ p.lValues, ∃ r ∈ lv.resonances, r.energy = E₀ ∧ r.gammaWidth = 0) →
          ∀ v, R.call K lib E₀ ≠ .ok v) ∧
        ∃ m₀ : ReactionMap, ∀ ε > 0, ∃ δ > 0, ∀ E, E ≠ E₀ → |E - E₀| < δ →
          ∃ m R', R.call K lib E = .ok (m, R') ∧ ∀ id, Close ε (m id) (m₀ id) := by
  obtain ⟨R, hR, -⟩ := C69_accepted (K := K) (lib := lib) (tables := tables) (reactions := reactions)
    (initialBreitWigner := initialBreitWigner) (initial := initial) (elementaryCharge := elementaryCharge)
    (incident := incident) (target := target) ht hp hr h
  refine ⟨R, hR, fun E₀ h0 hE hap hlv hneutron => ?_⟩
  have weak : ∀ {ap}, RadiiAround neutronMass A nro range.naps ap E₀ →
      RadiiAt neutronMass A nro range.naps ap E₀ := by
    rintro ap ⟨channel, scattering, h1, -, h2, b, -, h3⟩
    exact ⟨channel, scattering, h1, h2, _, h3.self_of_nhds⟩
  obtain ⟨k1, k2, -, nro', k3, k4⟩ := C47_dispatch hR
  rw [radiusTable_of hr] at k3
  obtain rfl := Except.ok.inj k3
  rw [hp] at k4
  cases hs : R.system with
  | shiftFactor s =>
    rw [hs] at k4
    have hch := reichMoore_channels h k4
    obtain ⟨hgr, hpoles⟩ := reichMoore_groups h k4
    have hn : ∀ st ∈ s, ∀ c ∈ st.group.channels, NeutralAt E₀ c := fun st hst =>
      (hgr st hst).2.2.1 E₀ h0.ne' (weak hap) fun lv hlv' => weak (hlv lv hlv')
    constructor
    · rintro ⟨lv, hlm, r', hr', e1, e2⟩ ⟨m, R'⟩ hcall
      obtain ⟨m₁, s', hev, -, -⟩ := (call_variant (option := .shiftFactor) hs
        (by rw [k1, k2]; exact ⟨hE.1.le, hE.2.le⟩) m R').mp hcall
      obtain ⟨st, hst, r, hrm, e3, e4⟩ := hpoles lv hlm r' hr'
      obtain ⟨⟨m₂, c₂⟩, hst'⟩ := (evaluate_system_groups hev).2 st hst
      obtain ⟨P, S, w, phi, hv, -⟩ := evaluate_ok (hgr st hst).1 hst'
      refine hv.noPole r hrm ⟨e3.trans e1, ?_⟩
      rw [e4, e2, toOtherWidth_zero]
    · refine C111_reconstructor (option := .shiftFactor) (s := s) hs (fun st hst => (hch st hst).1) ?_ hn
        (fun st hst => (hgr st hst).2.1) (reichMoore_crossing h k4 h0 hn hneutron)
        (by rw [k1, k2]; exact hE)
      intro st hst c hc
      obtain ⟨c1, c2, c3, ap, c4, c5⟩ := (hch st hst).2 c hc
      have hap' : RadiiAround neutronMass A nro range.naps ap E₀ := by
        rcases c4 with rfl | ⟨lv, hlv', rfl⟩
        · exact hap
        · exact hlv lv hlv'
      obtain ⟨channel, scattering, r1, ⟨a, ha, hav⟩, ⟨a₀, ha₀, hc₀⟩, r4⟩ := hap'
      obtain ⟨radii, q1, q2, q3, q4⟩ := radii_of_isRadii (mul_nonneg h.positive.le h.mass.le) r1
      rw [c5] at q1
      obtain rfl := Except.ok.inj q1
      have e0 : a E₀ = a₀ := by
        have := hav.self_of_nhds
        rw [hc₀] at this
        exact (Except.ok.inj this).symm
      refine ⟨c1, q2 ▸ ⟨a, ha, hav⟩, fun _ => ?_, q3 ▸ ⟨a, ha, hav⟩, q4 ▸ r4, fun hthr => ?_⟩
      · rw [q2]
        filter_upwards [hav, ha.eventually_const_lt (e0 ▸ ha₀)] with E h1 h2 x hx
        rw [h1] at hx
        exact (Except.ok.inj hx) ▸ h2.le
      · exact absurd hthr (hn st hst c hc).notThreshold
  | constant s => rw [hs] at k4; exact k4.elim
  | singleLevel s => rw [hs] at k4; exact k4.elim
  | multiLevel s => rw [hs] at k4; exact k4.elim
  | unresolved s => rw [hs] at k4; exact k4.elim

/-! ## Example -/

namespace Example

/-- An s-wave resonance at 3 without capture width, for one of the two J that are possible. -/
noncomputable def sharp : ReichMoore := ⟨1 / 2, 1 / 2, 1, [⟨0, 10, 2 / 5, [⟨3, 0, 1, 0, 0, 0⟩]⟩]⟩

theorem sharp_physical : PhysicalReichMoore 1 10 none 1 sharp := by
  refine ⟨one_pos, by norm_num, by simp [sharp], ⟨1, by norm_num [sharp]⟩, by simp [sharp],
    by simp [sharp], by simp [sharp], by simp [sharp], ⟨?_, ?_⟩, ?_, by simp [sharp], ?_, ?_⟩
  · intro lv hlv r hr
    simp only [sharp, List.mem_singleton] at hlv
    subst hlv
    simp only [List.mem_singleton] at hr
    subst hr
    exact ⟨by norm_num [sharp], 0, ⟨by norm_num [sharp], by norm_num [sharp], 1,
      by norm_num [sharp]⟩, by norm_num, by norm_num, 0, by norm_num⟩
  · intro lv hlv r hr r' hr' h0
    simp only [sharp, List.mem_singleton] at hlv
    subst hlv
    simp only [List.mem_singleton] at hr
    subst hr
    exact absurd rfl h0
  · intro lv hlv r hr r' hr' h0
    simp only [sharp, List.mem_singleton] at hlv
    subst hlv
    simp only [List.mem_singleton] at hr
    subst hr
    exact absurd rfl h0
  · intro J parity
    refine List.Nodup.sublist ((List.filter_sublist).map _) ?_
    by_cases h1 : (1 : ℤ) = parity
    · simp [sharp, h1]
    · simp [sharp, h1]
  · intro lv hlv
    refine ⟨_, _, radii _ _, fun r hr => ⟨lengthOf sharp lv, ?_, rfl⟩⟩
    simp only [sharp, List.mem_singleton] at hlv
    subst hlv
    norm_num [lengthOf]

/-- The example has no cross sections at 3, and cross sections with a limit around it. -/
example (K : Constants) (lib : CoulombLibrary) (tables : InterpolationLibrary) (reactions : ReactionLibrary)
    (initialBreitWigner : Channel → Verif.BreitWigner.Cache)
    (initial : (g : SpinGroup) → MatrixCache g.channels.length) (elementaryCharge : ℝ) :
    ∃ R, fromENDF K lib tables reactions initialBreitWigner initial 1 elementaryCharge "n".toList
        "H10".toList ⟨1, 10, 1, 3, 1, none, .reichMoore sharp⟩ = .ok R ∧ (∀ v, R.call K lib 3 ≠ .ok v) ∧
      ∃ m₀ : ReactionMap, ∀ ε > 0, ∃ δ > 0, ∀ E, E ≠ 3 → |E - 3| < δ →
        ∃ m R', R.call K lib E = .ok (m, R') ∧ ∀ id, Close ε (m id) (m₀ id) := by
  have around : ∀ {ap : ℝ}, 0 < ap → RadiiAround 1 10 none 1 ap 3 := fun h =>
    ⟨_, _, radii _ _, ⟨fun _ => _, continuousAt_const, Eventually.of_forall fun _ => rfl⟩, ⟨_, h, rfl⟩,
      ⟨fun _ => _, continuousAt_const, Eventually.of_forall fun _ => rfl⟩⟩
  obtain ⟨R, h1, h2⟩ := C111_reich_moore (K := K) (lib := lib) (tables := tables) (reactions := reactions)
    (initialBreitWigner := initialBreitWigner) (initial := initial) (elementaryCharge := elementaryCharge)
    (incident := "n".toList) (target := "H10".toList) (nro := none) (neutronMass := 1) (A := 10)
    (range := ⟨1, 10, 1, 3, 1, none, .reichMoore sharp⟩) ⟨rfl, rfl⟩ rfl .none sharp_physical
  obtain ⟨h3, h4⟩ := h2 3 (by norm_num) ⟨by norm_num, by norm_num⟩ (around (by norm_num [sharp])) (by
      intro lv hlv
      refine around ?_
      simp only [sharp, List.mem_singleton] at hlv
      subst hlv
      norm_num [lengthOf]) (by
      intro lv hlv r hr
      simp only [sharp, List.mem_singleton] at hlv
      subst hlv
      simp only [List.mem_singleton] at hr
      subst hr
      norm_num)
  exact ⟨R, h1, h3 ⟨_, List.mem_cons_self, _, List.mem_cons_self, rfl, rfl⟩, h4⟩

end Example

end Endf

end Verif
