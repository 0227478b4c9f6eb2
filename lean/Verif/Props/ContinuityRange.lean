import Verif.Props.Continuity
import Verif.Props.ReichMooreRangeAccepted

/-!
# Property C72 for Reich-Moore ranges
-/

namespace Verif

open Filter Topology

variable {K : Constants} {lib : CoulombLibrary} {E₀ : ℝ}

/-- A compound system with either option for its boundary conditions. -/
def variantOf : BoundaryOption → CompoundSystem → SystemVariant
  | .shiftFactor, s => .shiftFactor s
  | .constant, s => .constant s

/-- C72 for a reconstructor of a compound system, at the energies inside its range. -/
theorem C72_reconstructor {option : BoundaryOption} {R R' : Reconstructor} {s : CompoundSystem}
    (hs : R.system = variantOf option s)
    (hg : ∀ st ∈ s, st.group.Built)
    (hr : ∀ st ∈ s, ∀ c ∈ st.group.channels, Spec.Regular option c E₀)
    (hE : R.lower < E₀ ∧ E₀ < R.upper) {m : ReactionMap} (h : R.call K lib E₀ = .ok (m, R'))
    {ε : ℝ} (hε : 0 < ε) :
    ∃ δ > 0, ∀ E, |E - E₀| < δ → ∃ m' R', R.call K lib E = .ok (m', R') ∧
      ∀ id, Spec.Close ε (m' id) (m id) := by
  have hev : ∀ E, R.lower ≤ E ∧ E ≤ R.upper → ∀ m R', R.call K lib E = .ok (m, R') ↔
      ∃ m₁ s', CompoundSystem.evaluate option K lib E s (fun _ => none) = .ok (m₁, s') ∧
        m = .ofCrossSections m₁ ∧ R' = { R with system := variantOf option s' } := by
    intro E hE m R'
    unfold Reconstructor.call
    rw [if_pos (by exact hE), hs]
    cases option <;> unfold variantOf SystemVariant.evaluate <;>
    · simp only [Bind.bind, Except.bind]
      cases h1 : CompoundSystem.evaluate _ K lib E s fun _ => none with
      | error e => simp
      | ok v =>
        obtain ⟨m₁, s₁⟩ := v
        simp only [pure, Except.pure, Except.ok.injEq, Prod.mk.injEq]
        constructor
        · rintro ⟨rfl, rfl⟩
          exact ⟨_, _, ⟨rfl, rfl⟩, rfl, rfl⟩
        · rintro ⟨_, _, ⟨rfl, rfl⟩, rfl, rfl⟩
          exact ⟨rfl, rfl⟩
  obtain ⟨m₀, s', h1, rfl, -⟩ := (hev E₀ ⟨hE.1.le, hE.2.le⟩ m R').mp h
  obtain ⟨δ, hδ, h2⟩ := C72_system hg hr h1 hε
  refine ⟨min δ (min (E₀ - R.lower) (R.upper - E₀)), by
    refine lt_min hδ (lt_min ?_ ?_) <;> linarith [hE.1, hE.2], fun E hE' => ?_⟩
  obtain ⟨h3, h4⟩ := lt_min_iff.mp hE'
  obtain ⟨h5, h6⟩ := lt_min_iff.mp h4
  rw [abs_lt] at h5 h6
  obtain ⟨m', s₂, h7, h8⟩ := h2 E h3 s rfl
  refine ⟨_, _, (hev E ⟨by linarith [h5.1], by linarith [h6.2]⟩ _ _).mpr ⟨m', s₂, h7, rfl, rfl⟩, ?_⟩
  rintro (id | id)
  · exact h8 id
  · trivial

namespace Endf

open Spec Blocks

variable {tables : InterpolationLibrary}
  {initialBreitWigner : Channel → Verif.BreitWigner.Cache} {neutronMass A : ℝ} {incident target : Str}
  {reactions : ReactionLibrary} {initial : (g : SpinGroup) → MatrixCache g.channels.length}
  {elementaryCharge : ℝ} {range : Range} {p : ReichMoore} {s : CompoundSystem}
  {nro : Option (ℝ → Outcome ℝ)} {naps : ℤ}

theorem cell_channel (b : Block) (j : Fin 3) :
    ((b.cell K lib).channel j).type ≠ .charged ∧ ((b.cell K lib).channel j).q = 0 ∧
      ((b.cell K lib).channel j).incident = b.pair ∧ ((b.cell K lib).channel j).radii = b.radii := by
  match j with
  | 0 => exact ⟨by show ChannelType.neutron ≠ .charged; decide, rfl, rfl, rfl⟩
  | 1 => exact ⟨by show ChannelType.fission ≠ .charged; decide, rfl, rfl, rfl⟩
  | 2 => exact ⟨by show ChannelType.fission ≠ .charged; decide, rfl, rfl, rfl⟩

/-- The channels of a Reich-Moore evaluation. -/
theorem reichMoore_channels (h : PhysicalReichMoore neutronMass A nro naps p)
    (hs : makeReichMooreCompoundSystem K lib initial neutronMass incident target nro naps p = .ok s) :
    ∀ st ∈ s, st.group.Built ∧ ∀ c ∈ st.group.channels, c.type ≠ .charged ∧ c.q = 0 ∧
      0 < c.incident.massRatio ∧ ∃ ap, (ap = p.ap ∨ ∃ lv ∈ p.lValues, ap = lengthOf p lv) ∧
        makeChannelRadii ap nro naps A neutronMass = .ok c.radii := by
  obtain ⟨blocks, pair, radii, remaining, consolidated, hL, h4, h5⟩ := Layout.of_system h.spin h.ratio hs
  have hall := hL.all h.spin h.ratio
  obtain ⟨dk, dc⟩ := data_cells fun b hb => (hall b hb).2.1
  have hgood : ∀ c ∈ (blocks ++ remaining.map (emptyBlock A pair radii)).map (Block.cell K lib), c.Good := by
    intro c hc
    obtain ⟨b, -, rfl⟩ := List.mem_map.mp hc
    exact b.cell_good
  obtain ⟨jpis, -, -, j3⟩ := system_groups dk (by
      intro d hd
      obtain ⟨b, hb, hd⟩ := List.mem_flatMap.mp hd
      exact (hall b hb).2.1.lengths d hd) (by
      intro c hc
      obtain ⟨b, hb, rfl⟩ := List.mem_map.mp hc
      exact (Block.cell_jpi (hall b hb).1).2) hgood dc
    (fun x => hL.nodup h.different (fun b hb => (hall b hb).1) x) h4 h5
  have hpair := incidentPair_eq incident target p.spin h.mass h.positive.le
  rw [hL.pair] at hpair
  have hpv := Except.ok.inj hpair
  have hratio : 0 < pair.massRatio := by
    rw [hpv]
    have := h.positive
    have := h.mass
    positivity
  intro st hst
  obtain ⟨x, -, hb, -, hch, -⟩ := forall₂_mem_right j3 hst
  refine ⟨hb, fun c hc => ?_⟩
  rw [hch] at hc
  obtain ⟨cell, hcm, j, -, rfl⟩ := mem_channelsOf.mp hc
  obtain ⟨b, hbm, rfl⟩ := List.mem_map.mp (mem_cellsOf.mp hcm).1
  obtain ⟨-, -, -, hbp⟩ := hall b hbm
  obtain ⟨k1, k2, k3, k4⟩ := cell_channel (K := K) (lib := lib) b j
  refine ⟨k1, k2, by rw [k3, hbp]; exact hratio, ?_⟩
  rw [k4]
  rcases List.mem_append.mp hbm with hb | hb
  · have hmem := (Block.lvalue_mem hL.groups hb).1
    have hr := (hL.valid b hb).radii
    rw [h.ratio _ hmem] at hr
    exact ⟨_, Or.inr ⟨_, hmem, rfl⟩, hr⟩
  · obtain ⟨n, hn, rfl⟩ := List.mem_map.mp hb
    exact ⟨_, Or.inl rfl, hL.radii⟩

/-- C72 for Reich-Moore ranges: a range that makes sense physically has cross sections at every energy inside
it, other than zero, around which its radii are continuous and which is not that of a resonance without
capture width, and they are continuous there. -/
theorem C72_reich_moore (ht : range.type = 1 ∧ range.representation = 3)
    (hp : range.parameters = .reichMoore p)
    (hr : Option.Rel (IsRadiusTable tables) range.scatteringRadius nro)
    (h : PhysicalReichMoore neutronMass A nro range.naps p) :
    ∃ R, fromENDF K lib tables reactions initialBreitWigner initial neutronMass elementaryCharge incident
        target range = .ok R ∧
      ∀ E₀, E₀ ≠ 0 → range.lower < E₀ ∧ E₀ < range.upper →
        RadiiAround neutronMass A nro range.naps p.ap E₀ →
        (∀ lv ∈ p.lValues, RadiiAround neutronMass A nro range.naps (lengthOf p lv) E₀) →
        (∀ lv ∈ p.lValues, ∀ r ∈ lv.resonances, r.energy = E₀ → r.gammaWidth ≠ 0) →
        ∃ m R', R.call K lib E₀ = .ok (m, R') ∧ ∀ ε > 0, ∃ δ > 0, ∀ E, |E - E₀| < δ →
          ∃ m' R', R.call K lib E = .ok (m', R') ∧ ∀ id, Close ε (m' id) (m id) := by
  obtain ⟨R, hR, hcall⟩ := C69_accepted (K := K) (lib := lib) (tables := tables) (reactions := reactions)
    (initialBreitWigner := initialBreitWigner) (initial := initial) (elementaryCharge := elementaryCharge)
    (incident := incident) (target := target) ht hp hr h
  refine ⟨R, hR, fun E₀ h0 hE hap hlv hpole => ?_⟩
  have weak : ∀ {ap}, RadiiAround neutronMass A nro range.naps ap E₀ →
      RadiiAt neutronMass A nro range.naps ap E₀ := by
    rintro ap ⟨channel, scattering, h1, -, h2, b, -, h3⟩
    exact ⟨channel, scattering, h1, h2, _, h3.self_of_nhds⟩
  obtain ⟨⟨m, R'⟩, hm⟩ := hcall E₀ h0 (weak hap) (fun lv hlv' => weak (hlv lv hlv')) hpole
  refine ⟨m, R', hm, fun ε hε => ?_⟩
  obtain ⟨k1, k2, -, nro', k3, k4⟩ := C47_dispatch hR
  rw [radiusTable_of hr] at k3
  obtain rfl := Except.ok.inj k3
  rw [hp] at k4
  cases hs : R.system with
  | shiftFactor s =>
    rw [hs] at k4
    have hch := reichMoore_channels h k4
    refine C72_reconstructor (option := .shiftFactor) (s := s) hs (fun st hst => (hch st hst).1) ?_
      (by rw [k1, k2]; exact hE) hm hε
    intro st hst c hc
    obtain ⟨c1, c2, c3, ap, c4, c5⟩ := (hch st hst).2 c hc
    have hap' : RadiiAround neutronMass A nro range.naps ap E₀ := by
      rcases c4 with rfl | ⟨lv, hlv', rfl⟩
      · exact hap
      · exact hlv lv hlv'
    obtain ⟨channel, scattering, r1, ⟨a, ha, hav⟩, ⟨a₀, ha₀, hc₀⟩, r4⟩ := hap'
    obtain ⟨radii, q1, q2, q3, q4⟩ := radii_of_isRadii (mul_nonneg h.positive.le h.mass.le) r1
    rw [c5] at q1
    obtain rfl := Except.ok.inj q1
    have e0 : a E₀ = a₀ := by
      have := hav.self_of_nhds
      rw [hc₀] at this
      exact (Except.ok.inj this).symm
    refine ⟨c1, q2 ▸ ⟨a, ha, hav⟩, fun _ => ?_, q3 ▸ ⟨a, ha, hav⟩, q4 ▸ r4, fun hthr => ?_⟩
    · rw [q2]
      filter_upwards [hav, ha.eventually_const_lt (e0 ▸ ha₀)] with E h1 h2 x hx
      rw [h1] at hx
      exact (Except.ok.inj hx) ▸ h2.le
    · unfold AtThreshold at hthr
      rw [c2, add_zero] at hthr
      exact absurd hthr (mul_ne_zero c3.ne' h0)
  | constant s => rw [hs] at k4; exact k4.elim
  | singleLevel s => rw [hs] at k4; exact k4.elim
  | multiLevel s => rw [hs] at k4; exact k4.elim
  | unresolved s => rw [hs] at k4; exact k4.elim

open Example in
/-- C72 applies to the example of C69 at energy 2. -/
example (K : Constants) (lib : CoulombLibrary) (tables : InterpolationLibrary) (reactions : ReactionLibrary)
    (initialBreitWigner : Channel → Verif.BreitWigner.Cache)
    (initial : (g : SpinGroup) → MatrixCache g.channels.length) (elementaryCharge : ℝ) (range : Range)
    (ht : range.type = 1 ∧ range.representation = 3) (hp : range.parameters = .reichMoore (evaluation 0))
    (hr : range.scatteringRadius = none) (hn : range.naps = 1) (hE : range.lower < 2 ∧ 2 < range.upper) :
    ∃ R m R', fromENDF K lib tables reactions initialBreitWigner initial 1 elementaryCharge "n".toList
        "Cl35".toList range = .ok R ∧ R.call K lib 2 = .ok (m, R') ∧ ∀ ε > 0, ∃ δ > 0, ∀ E, |E - 2| < δ →
      ∃ m' R', R.call K lib E = .ok (m', R') ∧ ∀ id, Close ε (m' id) (m id) := by
  have around : ∀ {ap : ℝ}, 0 < ap → RadiiAround 1 35 none 1 ap 2 := fun h =>
    ⟨_, _, radii _ _, ⟨fun _ => _, continuousAt_const, Eventually.of_forall fun _ => rfl⟩, ⟨_, h, rfl⟩,
      ⟨fun _ => _, continuousAt_const, Eventually.of_forall fun _ => rfl⟩⟩
  obtain ⟨R, h1, h2⟩ := C72_reich_moore (K := K) (lib := lib) (tables := tables) (reactions := reactions)
    (initialBreitWigner := initialBreitWigner) (initial := initial) (elementaryCharge := elementaryCharge)
    (incident := "n".toList) (target := "Cl35".toList) (nro := none) (neutronMass := 1) (A := 35) ht hp
    (by rw [hr]; exact .none) (by rw [hn]; exact physical)
  rw [hn] at h2
  obtain ⟨m, R', h3, h4⟩ := h2 2 two_ne_zero hE (around (by norm_num [evaluation])) (by
      intro lv hlv
      refine around ?_
      simp only [evaluation, List.mem_cons, List.not_mem_nil, or_false] at hlv
      rcases hlv with rfl | rfl <;> norm_num [lengthOf, evaluation]) (by
      intro lv hlv r hr
      simp only [evaluation, List.mem_cons, List.not_mem_nil, or_false] at hlv
      rcases hlv with rfl | rfl <;> simp only [List.mem_cons, List.not_mem_nil, or_false] at hr <;>
        rcases hr with rfl | hr <;> norm_num <;> rcases hr with rfl | rfl <;> norm_num)
  exact ⟨R, m, R', h1, h3, h4⟩

end Endf

end Verif
