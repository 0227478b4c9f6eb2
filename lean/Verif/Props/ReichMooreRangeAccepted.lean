import Verif.Props.ReichMooreRange
import Verif.Props.BreitWignerAccepted

/-!
# Property C69: Reich-Moore ranges that make sense physically are accepted
-/

namespace Verif.Endf

open Spec Blocks Complex

variable {K : Constants} {lib : CoulombLibrary} {tables : InterpolationLibrary}
  {initialBreitWigner : Channel → Verif.BreitWigner.Cache} {neutronMass E A : ℝ} {incident target : Str}
  {reactions : ReactionLibrary} {initial : (g : SpinGroup) → MatrixCache g.channels.length}
  {elementaryCharge : ℝ} {range : Range} {p : ReichMoore} {s : CompoundSystem}
  {nro : Option (ℝ → Outcome ℝ)} {naps : ℤ}

theorem PhysicalReichMoore.usable (h : PhysicalReichMoore neutronMass A nro naps p) :
    ∀ lv ∈ p.lValues, Usable neutronMass p.ap nro naps lv := by
  intro lv hlv
  have ha := h.ratio lv hlv
  obtain ⟨channel, scattering, h1, h2⟩ := h.radii lv hlv
  rw [← ha] at h1
  have h0 : 0 ≤ lv.awri * neutronMass := ha ▸ mul_nonneg h.positive.le h.mass.le
  obtain ⟨radii, k1, k2, -⟩ := radii_of_isRadii h0 h1
  exact ⟨ha ▸ h.positive, h.l lv hlv, h.energies lv hlv, radii, k1, fun r hr => k2 ▸ h2 r hr⟩

theorem toOtherWidth_ne_zero {x : ℝ} (h : x ≠ 0) : toOtherWidth x ≠ 0 := by
  unfold toOtherWidth
  have : 0 < Real.sqrt (|x| / 2) := Real.sqrt_pos.mpr (by positivity)
  simp only
  split
  · rw [one_mul]; exact this.ne'
  · rw [neg_one_mul]; exact (neg_lt_zero.mpr this).ne

theorem elastic_neutral {pair : ParticlePair} {radii : ChannelRadii} {n : QuantumNumbers} (hl : n.l ≤ 4)
    (hm : 0 < pair.reducedMass) (ht : pair.massRatio * E + 0 ≠ 0)
    (h1 : ∃ a, 0 < a ∧ radii.penetrability E = .ok a) (h2 : ∃ a, radii.shiftFactor E = .ok a)
    (h3 : ∃ a, radii.phaseShift E = .ok a) : NeutralAt E (elasticChannel pair radii n) :=
  ⟨by show ChannelType.neutron ≠ .charged; decide, fun _ => hl, fun _ => hm, ht, h1, h2, h3⟩

theorem fission_neutral {pair fission : ParticlePair} {radii : ChannelRadii} {l : ℕ} {J : ℚ} {id : Str}
    (hm : fission.id ≠ pair.id) (ht : pair.massRatio * E + 0 ≠ 0)
    (h1 : ∃ a, 0 < a ∧ radii.penetrability E = .ok a) (h2 : ∃ a, radii.shiftFactor E = .ok a)
    (h3 : ∃ a, radii.phaseShift E = .ok a) : NeutralAt E (fissionChannel pair fission radii l J id) :=
  have hn : ChannelType.fission ≠ .neutron := by decide
  ⟨by show ChannelType.fission ≠ .charged; decide, (absurd · hn),
    fun h => Or.elim h (absurd · hn) (absurd · hm), ht, h1, h2, h3⟩

theorem cell_neutral {b : Block} (hl : b.numbers.l ≤ 4) (hm : 0 < b.pair.reducedMass)
    (hf : b.fission.id ≠ b.pair.id) (ht : b.pair.massRatio * E + 0 ≠ 0)
    (h1 : ∃ a, 0 < a ∧ b.radii.penetrability E = .ok a) (h2 : ∃ a, b.radii.shiftFactor E = .ok a)
    (h3 : ∃ a, b.radii.phaseShift E = .ok a) (j : Fin 3) : NeutralAt E ((b.cell K lib).channel j) := by
  match j with
  | 0 => exact elastic_neutral hl hm ht h1 h2 h3
  | 1 => exact fission_neutral hf ht h1 h2 h3
  | 2 => exact fission_neutral hf ht h1 h2 h3

theorem toOtherWidth_eq_zero {x : ℝ} : toOtherWidth x = 0 ↔ x = 0 := by
  refine ⟨fun h => by_contra fun h0 => toOtherWidth_ne_zero h0 h, ?_⟩
  rintro rfl
  simp [toOtherWidth]

/-- The spin groups of an evaluation that makes sense physically: their channels have functions wherever
there are radii, and their resonances are those of the evaluation. -/
theorem reichMoore_groups (h : PhysicalReichMoore neutronMass A nro naps p)
    (hs : makeReichMooreCompoundSystem K lib initial neutronMass incident target nro naps p = .ok s) :
    (∀ st ∈ s, st.group.Built ∧
      (∀ r ∈ st.group.table.resonances, r.widths.length = st.group.channels.length) ∧
      (∀ E, E ≠ 0 → RadiiAt neutronMass A nro naps p.ap E →
        (∀ lv ∈ p.lValues, RadiiAt neutronMass A nro naps (lengthOf p lv) E) →
        ∀ c ∈ st.group.channels, NeutralAt E c) ∧
      ∀ r ∈ st.group.table.resonances, ∃ lv ∈ p.lValues, ∃ r' ∈ lv.resonances, r'.energy = r.energy ∧
        r.eliminated = toOtherWidth r'.gammaWidth) ∧
    ∀ lv ∈ p.lValues, ∀ r' ∈ lv.resonances, ∃ st ∈ s, ∃ r ∈ st.group.table.resonances,
      r.energy = r'.energy ∧ r.eliminated = toOtherWidth r'.gammaWidth := by
  have h0 : 0 ≤ A * neutronMass := mul_nonneg h.positive.le h.mass.le
  obtain ⟨blocks, pair, radii, remaining, consolidated, hL, h4, h5⟩ := Layout.of_system h.spin h.ratio hs
  have hall := hL.all h.spin h.ratio
  obtain ⟨dk, dc⟩ := data_cells fun b hb => (hall b hb).2.1
  have hgood : ∀ c ∈ (blocks ++ remaining.map (emptyBlock A pair radii)).map (Block.cell K lib), c.Good := by
    intro c hc
    obtain ⟨b, -, rfl⟩ := List.mem_map.mp hc
    exact b.cell_good
  obtain ⟨jpis, -, j2, j3⟩ := system_groups dk (by
      intro d hd
      obtain ⟨b, hb, hd⟩ := List.mem_flatMap.mp hd
      exact (hall b hb).2.1.lengths d hd) (by
      intro c hc
      obtain ⟨b, hb, rfl⟩ := List.mem_map.mp hc
      exact (Block.cell_jpi (hall b hb).1).2) hgood dc
    (fun x => hL.nodup h.different (fun b hb => (hall b hb).1) x) h4 h5
  have hpair := incidentPair_eq incident target p.spin h.mass h.positive.le
  rw [hL.pair] at hpair
  have hpv := Except.ok.inj hpair
  have hred : 0 < pair.reducedMass := by
    rw [hpv]
    have := h.positive
    have := h.mass
    positivity
  have hpid : pair.id = pairID incident target := by rw [hpv]
  have hcell : ∀ x, ∀ c ∈ cellsOf ((blocks ++ remaining.map (emptyBlock A pair radii)).map
      (Block.cell K lib)) x, ∃ b ∈ blocks ++ remaining.map (emptyBlock A pair radii), b.cell K lib = c :=
    fun x c hc => List.mem_map.mp (mem_cellsOf.mp hc).1
  constructor
  · intro st hst
    obtain ⟨x, -, hb, -, hch, hR⟩ := forall₂_mem_right j3 hst
    refine ⟨hb, fun r hr => by rw [hR.lengths r hr, hch], fun E hE hap hlv c hc => ?_, fun r hr => ?_⟩
    · have hratio : pair.massRatio * E + 0 ≠ 0 := by
        rw [add_zero, hpv]
        have := h.positive
        have := h.mass
        exact mul_ne_zero (by positivity) hE
      have hradii : ∀ b ∈ blocks ++ remaining.map (emptyBlock A pair radii), b.lvalue.l ≤ 4 ∧
          (∃ a, 0 < a ∧ b.radii.penetrability E = .ok a) ∧ (∃ a, b.radii.shiftFactor E = .ok a) ∧
          ∃ a, b.radii.phaseShift E = .ok a := by
        have key : ∀ ap r, makeChannelRadii ap nro naps A neutronMass = .ok r →
            RadiiAt neutronMass A nro naps ap E → (∃ a, 0 < a ∧ r.penetrability E = .ok a) ∧
            (∃ a, r.shiftFactor E = .ok a) ∧ ∃ a, r.phaseShift E = .ok a := by
          rintro ap r hr ⟨channel, scattering, h1, ⟨a, h2, h3⟩, h4⟩
          obtain ⟨r', k1, k2, k3, k4⟩ := radii_of_isRadii h0 h1
          rw [hr] at k1
          obtain rfl := Except.ok.inj k1
          rw [k2, k3, k4]
          exact ⟨⟨a, h2, h3⟩, ⟨a, h3⟩, h4⟩
        intro b hb
        rcases List.mem_append.mp hb with hb | hb
        · have hmem := (Block.lvalue_mem hL.groups hb).1
          have hr := (hL.valid b hb).radii
          rw [h.ratio _ hmem] at hr
          exact ⟨h.l _ hmem, key _ _ hr (hlv _ hmem)⟩
        · obtain ⟨n, hn, rfl⟩ := List.mem_map.mp hb
          have := (hL.left h.spin n hn).1
          have := h.waves.2
          exact ⟨show n.l ≤ 4 by omega, key _ _ hL.radii hap⟩
      rw [hch] at hc
      obtain ⟨cell, hcm, j, -, rfl⟩ := mem_channelsOf.mp hc
      obtain ⟨b, hbm, rfl⟩ := hcell _ _ hcm
      obtain ⟨hnum, -, hfis, hbp⟩ := hall b hbm
      obtain ⟨hl, r1, r2, r3⟩ := hradii b hbm
      refine cell_neutral (by rw [hnum.l]; exact hl) (by rw [hbp]; exact hred) ?_
        (by rw [hbp]; exact hratio) r1 r2 r3 j
      rw [hfis, hbp, hpid]
      exact (pairID_ne_of_not_mem (id := "fission".toList) (by decide))
    · have hmem := hR.energies.subset (List.mem_map_of_mem hr)
      obtain ⟨row, hrow, e⟩ := List.mem_map.mp hmem
      obtain ⟨c, hc, hrow⟩ := List.mem_flatMap.mp hrow
      obtain ⟨k, rfl⟩ := List.mem_iff_get.mp hc
      have := (hR.widths r hr k row hrow e.symm).1
      obtain ⟨b, hbm, e2⟩ := hcell _ _ hc
      rw [← e2] at hrow
      obtain ⟨r', hr', rfl⟩ := List.mem_map.mp hrow
      have hr' := (List.mem_filter.mp hr').1
      have hbm' : b ∈ blocks := by
        rcases List.mem_append.mp hbm with hb | hb
        · exact hb
        · obtain ⟨n, -, rfl⟩ := List.mem_map.mp hb
          cases hr'
      exact ⟨_, (Block.lvalue_mem hL.groups hbm').1, r', hr', e, this⟩
  · intro lv hlv r' hr'
    have hg : (lv, r'.spin) ∈ groupsOf p.lValues := mem_groupsOf.mpr ⟨hlv, r', hr', rfl⟩
    rw [← hL.groups] at hg
    obtain ⟨b, hbm, e⟩ := List.mem_map.mp hg
    obtain ⟨e0, e⟩ := Prod.mk.inj e
    have hcur : r' ∈ b.current := List.mem_filter.mpr ⟨e0 ▸ hr', by simpa using e.symm⟩
    have hbm' : b ∈ blocks ++ remaining.map (emptyBlock A pair radii) := List.mem_append_left _ hbm
    have hj := j2 _ (List.mem_map_of_mem (f := Block.cell K lib) hbm')
    obtain ⟨st, hst, -, -, hch, hR⟩ := forall₂_mem_left j3 hj
    have hc : b.cell K lib ∈ cellsOf ((blocks ++ remaining.map (emptyBlock A pair radii)).map
        (Block.cell K lib)) (b.cell K lib).jpi := mem_cellsOf.mpr ⟨List.mem_map_of_mem hbm', rfl⟩
    obtain ⟨k, hk⟩ := List.mem_iff_get.mp hc
    obtain ⟨row, hrow, e1, e3⟩ : ∃ row ∈ (b.cell K lib).rows, row.energy = r'.energy ∧
        row.eliminated = toOtherWidth r'.gammaWidth :=
      ⟨_, List.mem_map_of_mem hcur, rfl, rfl⟩
    have hmem := hR.energies.mem_iff.mpr (List.mem_map_of_mem (f := Row.energy)
      (List.mem_flatMap.mpr ⟨_, hc, hrow⟩))
    obtain ⟨r, hr, e2⟩ := List.mem_map.mp hmem
    rw [← hk] at hrow
    exact ⟨st, hst, r, hr, e2.trans e1, ((hR.widths r hr k _ hrow e2).1).trans e3⟩

/-- The system of an evaluation that makes sense physically can be evaluated. -/
theorem reichMoore_evaluates (h : PhysicalReichMoore neutronMass A nro naps p) (hE : E ≠ 0)
    (hap : RadiiAt neutronMass A nro naps p.ap E)
    (hlv : ∀ lv ∈ p.lValues, RadiiAt neutronMass A nro naps (lengthOf p lv) E)
    (hpole : ∀ lv ∈ p.lValues, ∀ r ∈ lv.resonances, r.energy = E → r.gammaWidth ≠ 0)
    (hs : makeReichMooreCompoundSystem K lib initial neutronMass incident target nro naps p = .ok s)
    (result : CrossSectionMap) :
    ∃ r, CompoundSystem.evaluate .shiftFactor K lib E s result = .ok r := by
  refine evaluate_system_exists ?_ result
  intro st hst
  obtain ⟨hb, hw, hn, hr⟩ := (reichMoore_groups h hs).1 st hst
  refine (C19_neutral_channels hb (hn E hE hap hlv) hw ?_ st.cache (fun _ => none) (fun _ => none)).1
  rintro r hrm ⟨rE, r0⟩
  obtain ⟨lv, hlm, r', hr', e1, e2⟩ := hr r hrm
  exact hpole lv hlm r' hr' (e1.trans rE) (toOtherWidth_eq_zero.mp (e2.symm.trans r0))

/-- C69: a Reich-Moore range that makes sense physically is accepted, and it can be evaluated at every
energy other than zero at which it has radii and no resonance without capture width. -/
theorem C69_accepted (ht : range.type = 1 ∧ range.representation = 3)
    (hp : range.parameters = .reichMoore p)
    (hr : Option.Rel (IsRadiusTable tables) range.scatteringRadius nro)
    (h : PhysicalReichMoore neutronMass A nro range.naps p) :
    ∃ R, fromENDF K lib tables reactions initialBreitWigner initial neutronMass elementaryCharge incident
        target range = .ok R ∧
      ∀ E, E ≠ 0 → RadiiAt neutronMass A nro range.naps p.ap E →
        (∀ lv ∈ p.lValues, RadiiAt neutronMass A nro range.naps (lengthOf p lv) E) →
        (∀ lv ∈ p.lValues, ∀ r ∈ lv.resonances, r.energy = E → r.gammaWidth ≠ 0) →
        ∃ v, R.call K lib E = .ok v := by
  obtain ⟨s, hs⟩ := (C29_accepted (K := K) (lib := lib) initial incident target h.mass h.spin h.some
    h.distinct (PhysicalReichMoore.usable h)).mpr ⟨h.waves.1, h.coupled, h.fission⟩
  unfold fromENDF
  rw [radiusTable_of hr]
  simp only [bind, Except.bind]
  rw [ht.1, ht.2, hp]
  simp only [if_true]
  rw [if_neg (by norm_num), if_neg (by norm_num), hs]
  refine ⟨_, rfl, fun E hE h1 h2 h3 => ?_⟩
  obtain ⟨v, hv⟩ := reichMoore_evaluates h hE h1 h2 h3 hs fun _ => none
  unfold Reconstructor.call
  split
  · unfold SystemVariant.evaluate
    exact ⟨_, by simp only [bind, Except.bind]; erw [hv]; rfl⟩
  · exact ⟨_, rfl⟩

/-! ## Examples -/

namespace Example

theorem radii (ap mass : ℝ) : IsRadii ap none 1 mass (fun _ => .ok ap) fun _ => .ok ap :=
  ⟨.constant, .constant, rfl, fun _ => ⟨rfl, rfl⟩⟩

theorem radiiAt {ap : ℝ} (h : 0 < ap) (mass E : ℝ) : RadiiAt 1 mass none 1 ap E :=
  ⟨_, _, radii ap _, ⟨ap, h, rfl⟩, ap, rfl⟩

theorem physical : PhysicalReichMoore 1 35 none 1 (evaluation 0) := by
  have hI : HalfInt (evaluation 0).spin := ⟨3, by norm_num [evaluation]⟩
  obtain ⟨-, hc, hf⟩ := (C29_accepted (K := ⟨1, 1, one_pos, one_pos⟩) (lib := fun _ _ _ => .error .throws)
    (fun _ => ⟨0, 0, 0⟩) "n".toList "Cl35".toList one_pos hI
    (by simp [evaluation]) (by simp [evaluation]) (usable 0)).mp (accepted _ _ _)
  refine ⟨one_pos, by norm_num, by simp [evaluation], hI, by simp [evaluation], by simp [evaluation],
    by simp [evaluation], by simp [evaluation], hc, hf, by simp [evaluation], ?_, ?_⟩
  · intro J parity
    refine List.Nodup.sublist ((List.filter_sublist).map _) ?_
    by_cases h1 : parity = 1
    · subst h1
      norm_num [evaluation]
    · by_cases h2 : parity = -1
      · subst h2
        norm_num [evaluation]
      · have e1 : ((1 : ℤ) = parity) = False := by simpa using Ne.symm h1
        have e2 : ((-1 : ℤ) = parity) = False := by simpa using Ne.symm h2
        simp [evaluation, e1, e2]
  · intro lv hlv
    refine ⟨_, _, radii _ _, fun r hr => ⟨lengthOf (evaluation 0) lv, ?_, rfl⟩⟩
    simp only [evaluation, List.mem_cons, List.not_mem_nil, or_false] at hlv
    rcases hlv with rfl | rfl <;> norm_num [lengthOf, evaluation]

/-- The example is accepted and has cross sections at energy 2, to which C69 applies. -/
example (K : Constants) (lib : CoulombLibrary) (tables : InterpolationLibrary) (reactions : ReactionLibrary)
    (initialBreitWigner : Channel → Verif.BreitWigner.Cache)
    (initial : (g : SpinGroup) → MatrixCache g.channels.length) (elementaryCharge : ℝ) (range : Range)
    (ht : range.type = 1 ∧ range.representation = 3) (hp : range.parameters = .reichMoore (evaluation 0))
    (hr : range.scatteringRadius = none) (hn : range.naps = 1) (hE : range.lower ≤ 2 ∧ 2 ≤ range.upper) :
    ∃ R m R' ws, fromENDF K lib tables reactions initialBreitWigner initial 1 elementaryCharge "n".toList
        "Cl35".toList range = .ok R ∧ R.call K lib 2 = .ok (m, R') ∧
      IsReichMoore K 1 35 2 "n".toList "Cl35".toList none 1 (evaluation 0) ws fun id => m (.inl id) := by
  obtain ⟨R, h1, h2⟩ := C69_accepted (K := K) (lib := lib) (tables := tables) (reactions := reactions)
    (initialBreitWigner := initialBreitWigner) (initial := initial) (elementaryCharge := elementaryCharge)
    (incident := "n".toList) (target := "Cl35".toList) (nro := none) (neutronMass := 1) (A := 35) ht hp
    (by rw [hr]; exact .none) (by rw [hn]; exact physical)
  rw [hn] at h2
  obtain ⟨⟨m, R'⟩, hv⟩ := h2 2 two_ne_zero (radiiAt (by norm_num [evaluation]) _ _) (by
      intro lv hlv
      refine radiiAt ?_ _ _
      simp only [evaluation, List.mem_cons, List.not_mem_nil, or_false] at hlv
      rcases hlv with rfl | rfl <;> norm_num [lengthOf, evaluation]) (by
      intro lv hlv r hr
      simp only [evaluation, List.mem_cons, List.not_mem_nil, or_false] at hlv
      rcases hlv with rfl | rfl <;> simp only [List.mem_cons, List.not_mem_nil, or_false] at hr <;>
        rcases hr with rfl | hr <;> norm_num <;> rcases hr with rfl | rfl <;> norm_num)
  obtain ⟨nro, ws, k1, k2, -⟩ := C69_cross_sections h1 hp (by rw [hr, hn]; simp [prescribedRadii])
    physical.spin physical.ratio (by
      intro lv hlv r hr
      simp only [evaluation, List.mem_cons, List.not_mem_nil, or_false] at hlv
      rcases hlv with rfl | rfl <;> simp only [List.mem_cons, List.not_mem_nil, or_false] at hr
      · rcases hr with rfl | rfl | rfl <;> norm_num
      · rcases hr with rfl | rfl <;> norm_num) physical.different two_pos.le hE hv
  rw [hr] at k1
  cases k1
  rw [hn] at k2
  exact ⟨R, m, R', ws, h1, hv, k2⟩

/-- An s-wave resonance for one of the two J that are possible, with a radius of its own for l = 0. -/
noncomputable def ownRadius : ReichMoore := ⟨1 / 2, 1 / 2, 1, [⟨0, 10, 2 / 5, [⟨-1, 0, 1, 1, 0, 0⟩]⟩]⟩

theorem ownRadius_physical : PhysicalReichMoore 1 10 none 1 ownRadius := by
  refine ⟨one_pos, by norm_num, by simp [ownRadius], ⟨1, by norm_num [ownRadius]⟩, by simp [ownRadius],
    by simp [ownRadius], by simp [ownRadius], by simp [ownRadius], ⟨?_, ?_⟩, ?_, by simp [ownRadius], ?_, ?_⟩
  · intro lv hlv r hr
    simp only [ownRadius, List.mem_singleton] at hlv
    subst hlv
    simp only [List.mem_singleton] at hr
    subst hr
    exact ⟨by norm_num [ownRadius], 0, ⟨by norm_num [ownRadius], by norm_num [ownRadius], 1,
      by norm_num [ownRadius]⟩, by norm_num, by norm_num, 0, by norm_num⟩
  · intro lv hlv r hr r' hr' h0
    simp only [ownRadius, List.mem_singleton] at hlv
    subst hlv
    simp only [List.mem_singleton] at hr
    subst hr
    exact absurd rfl h0
  · intro lv hlv r hr r' hr' h0
    simp only [ownRadius, List.mem_singleton] at hlv
    subst hlv
    simp only [List.mem_singleton] at hr
    subst hr
    exact absurd rfl h0
  · intro J parity
    refine List.Nodup.sublist ((List.filter_sublist).map _) ?_
    by_cases h1 : (1 : ℤ) = parity
    · simp [ownRadius, h1]
    · simp [ownRadius, h1]
  · intro lv hlv
    refine ⟨_, _, radii _ _, fun r hr => ⟨lengthOf ownRadius lv, ?_, rfl⟩⟩
    simp only [ownRadius, List.mem_singleton] at hlv
    subst hlv
    norm_num [lengthOf]

end Example

/-- An energy at which the wave number is 1. -/
noncomputable def Example.ownEnergy (K : Constants) : ℝ := (1 / (waveConstant K.hbar 1 * (10 / 11))) ^ 2

open Verif.Endf.Example in
theorem Example.ownRadius_differs (K : Constants) (lib : CoulombLibrary) (tables : InterpolationLibrary)
    (reactions : ReactionLibrary) (initialBreitWigner : Channel → Verif.BreitWigner.Cache)
    (initial : (g : SpinGroup) → MatrixCache g.channels.length) (elementaryCharge : ℝ) (incident target : Str)
    (range : Range) (ht : range.type = 1 ∧ range.representation = 3)
    (hp : range.parameters = .reichMoore ownRadius) (hr : range.scatteringRadius = none) (hn : range.naps = 1)
    (hE : range.lower ≤ ownEnergy K ∧ ownEnergy K ≤ range.upper) :
    ∃ R m R', fromENDF K lib tables reactions initialBreitWigner initial 1 elementaryCharge incident target
        range = .ok R ∧ R.call K lib (ownEnergy K) = .ok (m, R') ∧
      ¬ ∃ ws, LevelWaves K 1 10 (ownEnergy K) none 1 ownRadius ws ∧
        ElasticFormula K 1 10 (ownEnergy K) incident target none 1 ownRadius ws fun id => m (.inl id) := by
  unfold ownEnergy at hE ⊢
  have hc : 0 < waveConstant K.hbar 1 := by
    have := K.hbar_pos
    unfold waveConstant
    positivity
  have hE0 : 0 < (1 / (waveConstant K.hbar 1 * (10 / 11))) ^ 2 := by positivity
  have hk : neutronWaveNumber (waveConstant K.hbar 1) 10 ((1 / (waveConstant K.hbar 1 * (10 / 11))) ^ 2) = 1 := by
    unfold neutronWaveNumber
    rw [abs_of_pos hE0, Real.sqrt_sq (by positivity)]
    field_simp
    try norm_num
  generalize (1 / (waveConstant K.hbar 1 * (10 / 11))) ^ 2 = E at hE hE0 hk ⊢
  obtain ⟨R, h1, h2⟩ := C69_accepted (K := K) (lib := lib) (tables := tables) (reactions := reactions)
    (initialBreitWigner := initialBreitWigner) (initial := initial) (elementaryCharge := elementaryCharge)
    (incident := incident) (target := target) (nro := none) (neutronMass := 1) (A := 10) ht hp
    (by rw [hr]; exact .none) (by rw [hn]; exact ownRadius_physical)
  rw [hn] at h2
  obtain ⟨⟨m, R'⟩, hv⟩ := h2 E hE0.ne' (radiiAt (by norm_num [ownRadius]) _ _) (by
      intro lv hlv
      refine radiiAt ?_ _ _
      simp only [ownRadius, List.mem_singleton] at hlv
      subst hlv
      norm_num [lengthOf]) (by
      intro lv hlv r hr
      simp only [ownRadius, List.mem_singleton] at hlv
      subst hlv
      simp only [List.mem_singleton] at hr
      subst hr
      norm_num)
  obtain ⟨nro, ws, k1, k2, -⟩ := C69_cross_sections h1 hp (by rw [hr, hn]; simp [prescribedRadii])
    ownRadius_physical.spin ownRadius_physical.ratio (by
      intro lv hlv r hr
      simp only [ownRadius, List.mem_singleton] at hlv
      subst hlv
      simp only [List.mem_singleton] at hr
      subst hr
      norm_num) ownRadius_physical.different hE0.le hE hv
  rw [hr] at k1
  cases k1
  rw [hn] at k2
  refine ⟨R, m, R', h1, hv, ?_⟩
  rintro ⟨ws', w1, φ', -, w2⟩
  obtain ⟨φ, p1, p2⟩ := k2.elastic
  have hw := k2.waves
  unfold LevelWaves at hw w1
  simp only [ownRadius] at hw w1
  cases hw with
  | cons hw hnil =>
  cases hnil
  cases w1 with
  | cons hw' hnil =>
  cases hnil
  rename_i w w'
  rw [if_neg (by simp)] at hw hw'
  obtain ⟨-, -, channel, scattering, r1, r2⟩ := hw
  obtain ⟨-, -, channel', scattering', r1', r2'⟩ := hw'
  obtain ⟨u1, u2, u3, u4⟩ := wave_unique (fun e => (isRadii_unique (e := e) r1 r1').1)
    (fun e => (isRadii_unique (e := e) r1 r1').2) r2 r2'
  have hmiss : missingFactor ownRadius 0 = 3 / 4 := by
    norm_num [missingFactor, ownRadius, givenFactor, neutronFactor]
  obtain ⟨-, c, sc, radius, r3, r4, r5⟩ := p1 0 (by norm_num [ownRadius]) (by rw [hmiss]; norm_num)
  have e1 : Real.sin (φ 0) ^ 2 = Real.sin (1 / 2) ^ 2 := by
    rw [(isRadii_unique (e := E) r3 (radii _ _)).2] at r4
    obtain rfl := Except.ok.inj r4
    refine sin_sq_eq_of_exp (r5.trans ?_)
    rw [hk, hardSpherePhase, one_mul]
    rfl
  have e2 : Real.sin w'.1.φ ^ 2 = Real.sin (2 / 5) ^ 2 := by
    obtain ⟨radius, r6, r7⟩ := r2'.phase
    rw [(isRadii_unique (e := E) r1' (radii _ _)).2] at r6
    obtain rfl := Except.ok.inj r6
    refine sin_sq_eq_of_exp (r7.trans ?_)
    rw [hk, hardSpherePhase, one_mul]
    norm_num [lengthOf]
  dsimp only at p2 w2
  rw [p2] at w2
  have w3 := Option.some.inj w2
  rw [hk] at w3
  have w4 := mul_left_cancel₀ (by positivity) w3
  have hJ : w'.2.map Coupled.J = [0] := level_spins r2'.resonances
  have hce : coupledElastic ownRadius.spin E w'.1 w'.2 = levelElastic ownRadius.spin E w'.1 w'.2
      + 3 / 4 * (4 * Real.sin w'.1.φ ^ 2) := by
    unfold coupledElastic levelElastic
    congr 2
    rw [hJ, r2'.l]
    norm_num [ownRadius, neutronFactor]
  have hle : levelElastic ownRadius.spin E w.1 w.2 = levelElastic ownRadius.spin E w'.1 w'.2 := by
    rw [u1]
    exact levelElastic_unique u3 u4
  have hr0 : ((Finset.range ownRadius.nlsc).filter (· ∉ ownRadius.lValues.map ReichMooreLValue.l)) = ∅ := by
    simp [ownRadius]
  rw [hr0] at w4
  have hr1 : Finset.range ownRadius.nlsc = {0} := rfl
  rw [hr1] at w4
  simp only [List.map_cons, List.map_nil, List.sum_cons, List.sum_nil, Finset.sum_singleton, Finset.sum_empty,
    hce, hle, hmiss, e1, e2] at w4
  have hlt : Real.sin (2 / 5) < Real.sin (1 / 2) := by
    refine Real.sin_lt_sin_of_lt_of_le_pi_div_two ?_ ?_ (by norm_num) <;> linarith [Real.pi_gt_three]
  have hpos : 0 < Real.sin (2 / 5) := Real.sin_pos_of_pos_of_lt_pi (by norm_num) (by linarith [Real.pi_gt_three])
  nlinarith

/-- C69, a limit of the code: the radius that is given for an l value is not used for its channels without
resonances, so that elastic scattering is not that of the documented formula. -/
theorem C69_disproved : ∃ (p : ReichMoore) (energy : Constants → ℝ),
    PhysicalReichMoore 1 10 none 1 p ∧
    ∀ K lib tables reactions initialBreitWigner initial elementaryCharge incident target range,
      range.type = 1 ∧ range.representation = 3 → range.parameters = .reichMoore p →
      range.scatteringRadius = none → range.naps = 1 →
      range.lower ≤ energy K ∧ energy K ≤ range.upper →
      ∃ R m R', fromENDF K lib tables reactions initialBreitWigner initial 1 elementaryCharge incident target
          range = .ok R ∧ R.call K lib (energy K) = .ok (m, R') ∧
        ¬ ∃ ws, LevelWaves K 1 10 (energy K) none 1 p ws ∧
          ElasticFormula K 1 10 (energy K) incident target none 1 p ws fun id => m (.inl id) :=
  ⟨Example.ownRadius, Example.ownEnergy, Example.ownRadius_physical, Example.ownRadius_differs⟩

end Verif.Endf
