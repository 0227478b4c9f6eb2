import Verif.Props.ReichMooreRangeAccepted
import Verif.Props.RMatrixRangeMore
import Verif.Props.UnresolvedAccepted
import Verif.Props.Reconstructor

/-!
# Property C75: cross sections at the points of a grid
-/

namespace Verif

open Complex

namespace Spec

/-- The functions of a channel have values at an energy, with a positive penetrability, and a channel of the
incident pair has a wave number. -/
structure FunctionsAt (K : Constants) (lib : CoulombLibrary) (E : ℝ) (c : Channel) : Prop where
  penetrability : ∃ P, 0 < P ∧ c.penetrability K lib E = .ok P
  shiftFactor : ∃ S, c.shiftFactor K lib E = .ok S
  coulomb : ∃ w, c.coulombPhaseShift K E = .ok w
  phase : ∃ phi, c.phaseShift K lib E = .ok phi
  wave : c.pair.id = c.incident.id → c.waveNumber K E ≠ 0

end Spec

open Spec

variable {K : Constants} {lib : CoulombLibrary} {option : BoundaryOption} {E : ℝ}

theorem NeutralAt.functions {c : Channel} (h : NeutralAt E c) : FunctionsAt K lib E c :=
  have hv := h.values (K := K) (lib := lib)
  ⟨hv.1, hv.2.1, hv.2.2.1, hv.2.2.2, fun hi => (waveNumber_pos (h.mass (.inr hi)) h.notThreshold).ne'⟩

/-- Where the functions of the channels have values, evaluation fails at the energies of the resonances
without eliminated width, and there only. -/
theorem evaluate_iff_pole {g : SpinGroup} (hg : g.Built)
    (hw : ∀ r ∈ g.table.resonances, r.widths.length = g.channels.length)
    (hc : ∀ c ∈ g.channels, FunctionsAt K lib E c) (cache : MatrixCache g.channels.length)
    (result : CrossSectionMap) :
    (∃ v, g.evaluate option K lib E cache result = .ok v) ↔
      ∀ r ∈ g.table.resonances, r.energy = E → r.eliminated ≠ 0 := by
  constructor
  · rintro ⟨⟨m, c'⟩, hv⟩ r hr hE h0
    obtain ⟨P, S, w, phi, hev, -⟩ := evaluate_ok hg hv
    exact hev.noPole r hr ⟨hE, h0⟩
  · intro h
    have hc' := fun i : Fin g.channels.length => hc g.channels[i] (List.getElem_mem _)
    choose P hP using fun i => (hc' i).penetrability
    choose S hS using fun i => (hc' i).shiftFactor
    choose w hw' using fun i => (hc' i).coulomb
    choose phi hphi using fun i => (hc' i).phase
    exact (C19_evaluation_succeeds hg (fun i => (hP i).2) (fun _ => hS) hw' hphi (fun i => (hP i).1.le)
      (fun _ i _ => (hP i).1) hw (fun r hr h' => h r hr h'.1 h'.2) (fun c hcm => (hc c hcm).wave) cache result
      fun _ => none).1

theorem system_grid_groups {s : CompoundSystem} {points : List ℝ} (h : s.grid K lib = .ok points) :
    ∀ st ∈ s, ∃ own, st.group.grid K lib = .ok own := by
  obtain ⟨grids, hg, -⟩ := bind_ok.mp h
  intro st hst
  exact mapM_exists.mp ⟨grids, hg⟩ st hst

/-- C75, spin groups: where the functions of its channels have values, a spin group can be evaluated at all
positive points of its grid exactly when no resonance with positive energy lacks an eliminated width. -/
theorem C75_group {g : SpinGroup} {points : List ℝ} (hg : g.Built)
    (hw : ∀ r ∈ g.table.resonances, r.widths.length = g.channels.length)
    (hgrid : g.grid K lib = .ok points)
    (hc : ∀ x ∈ points, 0 < x → ∀ c ∈ g.channels, FunctionsAt K lib x c)
    (cache : MatrixCache g.channels.length) (result : CrossSectionMap) :
    (∀ x ∈ points, 0 < x → ∃ v, g.evaluate option K lib x cache result = .ok v) ↔
      ∀ r ∈ g.table.resonances, 0 < r.energy → r.eliminated ≠ 0 := by
  have hmem : ∀ r ∈ g.table.resonances, 0 < r.energy → r.energy ∈ points := by
    intro r hr h0
    obtain ⟨G, hG⟩ := (C40_group_exists hw).mp ⟨points, hgrid⟩ r hr h0
    exact ((C40_group hw hgrid).2 _).mpr ⟨r, hr, h0, G, hG, .inr (.inl rfl)⟩
  constructor
  · intro h r hr h0
    have hm := hmem r hr h0
    exact (evaluate_iff_pole hg hw (hc _ hm h0) cache result).mp (h _ hm h0) r hr rfl
  · intro h x hx h0
    exact (evaluate_iff_pole hg hw (hc _ hx h0) cache result).mpr fun r hr e => h r hr (e ▸ h0)

theorem system_grid_exists {s : CompoundSystem}
    (hw : ∀ st ∈ s, ∀ r ∈ st.group.table.resonances, r.widths.length = st.group.channels.length)
    (hc : ∀ st ∈ s, ∀ r ∈ st.group.table.resonances, 0 < r.energy →
      ∀ c ∈ st.group.channels, FunctionsAt K lib r.energy c) :
    ∃ points, s.grid K lib = .ok points := by
  have h1 : ∀ st ∈ s, ∃ points, st.group.grid K lib = .ok points := by
    intro st hst
    refine (C40_group_exists (hw st hst)).mpr fun r hr h0 => ?_
    choose P hP using fun i : Fin st.group.channels.length =>
      (hc st hst r hr h0 st.group.channels[i] (List.getElem_mem _)).penetrability
    exact ⟨_, P, fun i => (hP i).2, rfl⟩
  obtain ⟨grids, hgrids⟩ := mapM_exists.mpr h1
  unfold CompoundSystem.grid
  rw [hgrids]
  exact ⟨_, rfl⟩

/-- A compound system can be evaluated exactly where no group has a resonance without eliminated width. -/
theorem system_iff_pole {s : CompoundSystem} (hb : ∀ st ∈ s, st.group.Built)
    (hw : ∀ st ∈ s, ∀ r ∈ st.group.table.resonances, r.widths.length = st.group.channels.length)
    (hc : ∀ st ∈ s, ∀ c ∈ st.group.channels, FunctionsAt K lib E c) (result : CrossSectionMap) :
    (∃ v, CompoundSystem.evaluate option K lib E s result = .ok v) ↔
      ∀ st ∈ s, ∀ r ∈ st.group.table.resonances, r.energy = E → r.eliminated ≠ 0 := by
  constructor
  · rintro ⟨⟨m, s'⟩, hv⟩ st hst
    exact (evaluate_iff_pole (hb st hst) (hw st hst) (hc st hst) _ _).mp ((evaluate_system_groups hv).2 st hst)
  · intro h
    exact evaluate_system_exists (fun st hst => (evaluate_iff_pole (hb st hst) (hw st hst) (hc st hst) _ _).mpr
      (h st hst)) result

/-- C75, compound systems. -/
theorem C75_system {s : CompoundSystem} {points : List ℝ} (hb : ∀ st ∈ s, st.group.Built)
    (hw : ∀ st ∈ s, ∀ r ∈ st.group.table.resonances, r.widths.length = st.group.channels.length)
    (hgrid : s.grid K lib = .ok points)
    (hc : ∀ x ∈ points, 0 < x → ∀ st ∈ s, ∀ c ∈ st.group.channels, FunctionsAt K lib x c)
    (result : CrossSectionMap) :
    (∀ x ∈ points, 0 < x → ∃ v, CompoundSystem.evaluate option K lib x s result = .ok v) ↔
      ∀ st ∈ s, ∀ r ∈ st.group.table.resonances, 0 < r.energy → r.eliminated ≠ 0 := by
  have hmem : ∀ st ∈ s, ∀ r ∈ st.group.table.resonances, 0 < r.energy → r.energy ∈ points := by
    intro st hst r hr h0
    obtain ⟨own, hown⟩ := system_grid_groups hgrid st hst
    obtain ⟨G, hG⟩ := (C40_group_exists (hw st hst)).mp ⟨own, hown⟩ r hr h0
    exact ((C40_system hw hgrid).2 _).mpr ⟨st, hst, r, hr, h0, G, hG, .inr (.inl rfl)⟩
  constructor
  · intro h st hst r hr h0
    have hm := hmem st hst r hr h0
    exact (system_iff_pole hb hw (hc _ hm h0) result).mp (h _ hm h0) st hst r hr rfl
  · intro h x hx h0
    exact (system_iff_pole hb hw (hc _ hx h0) result).mpr fun st hst r hr e => h st hst r hr (e ▸ h0)

end Verif

namespace Verif.Endf

open Spec

variable {K : Constants} {lib : CoulombLibrary} {tables : InterpolationLibrary}
  {initialBreitWigner : Channel → Verif.BreitWigner.Cache} {neutronMass E A : ℝ} {incident target : Str}
  {reactions : ReactionLibrary} {initial : (g : SpinGroup) → MatrixCache g.channels.length}
  {elementaryCharge : ℝ} {range : Range} {nro : Option (ℝ → Outcome ℝ)}

/-- C75, Breit-Wigner ranges: a range that makes sense physically has a grid, and has cross sections at all
points of it. -/
theorem C75_breit_wigner {p : BreitWigner} {multi : Bool}
    (hm : range.type = 1 ∧ range.representation = if multi then 2 else 1)
    (hp : range.parameters = if multi then .multiLevel p else .singleLevel p)
    (ht : Option.Rel (IsRadiusTable tables) range.scatteringRadius nro)
    (h : PhysicalBreitWigner neutronMass nro range.naps p) (h0 : 0 < range.lower)
    (hr : ∀ E, range.lower ≤ E → E ≤ range.upper → HasRadii neutronMass nro range.naps p E) :
    ∃ R points, fromENDF K lib tables reactions initialBreitWigner initial neutronMass elementaryCharge
        incident target range = .ok R ∧ (∀ fuel, R.grid K lib fuel = .ok (some points)) ∧
      ∀ x ∈ points, ∃ v, R.call K lib x = .ok v := by
  obtain ⟨R, h1, h2⟩ := C65_accepted (K := K) (lib := lib) (tables := tables) (reactions := reactions)
    (initialBreitWigner := initialBreitWigner) (initial := initial) (elementaryCharge := elementaryCharge)
    (incident := incident) (target := target) hm hp ht h
  obtain ⟨b1, b2, -, nro, -, h4⟩ := C47_dispatch h1
  obtain ⟨all, hall⟩ : ∃ all, ∀ fuel, R.system.grid K lib fuel = .ok (some all) := by
    rw [hp] at h4
    cases hs : R.system with
    | singleLevel s => exact ⟨_, fun _ => rfl⟩
    | multiLevel s => exact ⟨_, fun _ => rfl⟩
    | shiftFactor s => rw [hs] at h4; cases multi <;> exact h4.elim
    | constant s => rw [hs] at h4; cases multi <;> exact h4.elim
    | unresolved s => rw [hs] at h4; cases multi <;> exact h4.elim
  refine ⟨R, _, h1, fun fuel => by unfold Reconstructor.grid; rw [hall fuel]; rfl, ?_⟩
  intro x hx
  obtain ⟨-, h5⟩ := List.mem_filter.mp hx
  simp only [decide_eq_true_eq] at h5
  rw [b1, b2] at h5
  exact h2 x (h0.trans_le h5.1).ne' (hr x h5.1 h5.2)

/-- C75, Reich-Moore ranges: a range that makes sense physically has a grid, which contains the energies of
its resonances, and has cross sections at all points of it exactly when no resonance of the range lacks a
capture width. -/
theorem C75_reich_moore {p : ReichMoore} (ht : range.type = 1 ∧ range.representation = 3)
    (hp : range.parameters = .reichMoore p)
    (hr : Option.Rel (IsRadiusTable tables) range.scatteringRadius nro)
    (h : PhysicalReichMoore neutronMass A nro range.naps p) (h0 : 0 < range.lower)
    (hradii : ∀ E, (range.lower ≤ E ∧ E ≤ range.upper ∨
        0 < E ∧ ∃ lv ∈ p.lValues, ∃ r ∈ lv.resonances, r.energy = E) →
      RadiiAt neutronMass A nro range.naps p.ap E ∧
        ∀ lv ∈ p.lValues, RadiiAt neutronMass A nro range.naps (lengthOf p lv) E) :
    ∃ R points, fromENDF K lib tables reactions initialBreitWigner initial neutronMass elementaryCharge
        incident target range = .ok R ∧ (∀ fuel, R.grid K lib fuel = .ok (some points)) ∧
      (∀ lv ∈ p.lValues, ∀ r ∈ lv.resonances, range.lower ≤ r.energy → r.energy ≤ range.upper →
        r.energy ∈ points) ∧
      ((∀ x ∈ points, ∃ v, R.call K lib x = .ok v) ↔
        ∀ lv ∈ p.lValues, ∀ r ∈ lv.resonances, range.lower ≤ r.energy → r.energy ≤ range.upper →
          r.gammaWidth ≠ 0) := by
  obtain ⟨R, h1, h2⟩ := C69_accepted (K := K) (lib := lib) (tables := tables) (reactions := reactions)
    (initialBreitWigner := initialBreitWigner) (initial := initial) (elementaryCharge := elementaryCharge)
    (incident := incident) (target := target) ht hp hr h
  obtain ⟨b1, b2, -, nro', hnro, h4⟩ := C47_dispatch h1
  rw [radiusTable_of hr] at hnro
  obtain rfl := Except.ok.inj hnro
  rw [hp] at h4
  obtain ⟨s, hs⟩ : ∃ s, R.system = .shiftFactor s := by
    cases hs : R.system with
    | shiftFactor s => exact ⟨s, rfl⟩
    | _ => rw [hs] at h4; exact h4.elim
  rw [hs] at h4
  obtain ⟨g1, g2⟩ := reichMoore_groups h h4
  have hb := fun st hst => (g1 st hst).1
  have hw := fun st hst => (g1 st hst).2.1
  have hc : ∀ x, x ≠ 0 → (range.lower ≤ x ∧ x ≤ range.upper ∨
        0 < x ∧ ∃ lv ∈ p.lValues, ∃ r ∈ lv.resonances, r.energy = x) →
      ∀ st ∈ s, ∀ c ∈ st.group.channels, FunctionsAt K lib x c := fun x hx0 hx st hst c hcm =>
    ((g1 st hst).2.2.1 x hx0 (hradii x hx).1 (hradii x hx).2 c hcm).functions
  obtain ⟨all, hall⟩ := system_grid_exists (K := K) (lib := lib) hw (by
    intro st hst r hrm hpos
    obtain ⟨lv, hlv, r', hr', e, -⟩ := (g1 st hst).2.2.2 r hrm
    exact hc _ hpos.ne' (.inr ⟨hpos, lv, hlv, r', hr', e⟩) st hst)
  have hmem : ∀ lv ∈ p.lValues, ∀ r ∈ lv.resonances, 0 < r.energy → r.energy ∈ all := by
    intro lv hlv r' hr' hpos
    obtain ⟨st, hst, r, hrm, e, -⟩ := g2 lv hlv r' hr'
    rw [← e] at hpos ⊢
    obtain ⟨own, hown⟩ := system_grid_groups hall st hst
    obtain ⟨G, hG⟩ := (C40_group_exists (hw st hst)).mp ⟨own, hown⟩ r hrm hpos
    exact ((C40_system hw hall).2 _).mpr ⟨st, hst, r, hrm, hpos, G, hG, .inr (.inl rfl)⟩
  have hin : ∀ x, x ∈ (all.filter fun energy => R.lower ≤ energy ∧ energy ≤ R.upper) ↔
      x ∈ all ∧ range.lower ≤ x ∧ x ≤ range.upper := by
    intro x
    rw [List.mem_filter, b1, b2, decide_eq_true_eq]
  refine ⟨R, all.filter fun energy => R.lower ≤ energy ∧ energy ≤ R.upper, h1, fun fuel => ?_, ?_, ?_⟩
  · unfold Reconstructor.grid
    rw [hs]
    simp only [SystemVariant.grid, bind, Except.bind, hall]
    rfl
  · intro lv hlv r hrm l1 l2
    exact (hin _).mpr ⟨hmem lv hlv r hrm (h0.trans_le l1), l1, l2⟩
  · constructor
    · intro hall' lv hlv r' hr' l1 l2 hz
      have hpos := h0.trans_le l1
      obtain ⟨⟨m, R'⟩, hv⟩ := hall' _ ((hin _).mpr ⟨hmem lv hlv r' hr' hpos, l1, l2⟩)
      unfold Reconstructor.call at hv
      rw [b1, b2, if_pos ⟨l1, l2⟩, hs] at hv
      obtain ⟨⟨m1, system⟩, hv, -⟩ := bind_ok.mp hv
      obtain ⟨v, hv, -⟩ := bind_ok.mp hv
      obtain ⟨st, hst, r, hrm, e, e2⟩ := g2 lv hlv r' hr'
      refine (system_iff_pole hb hw (hc _ hpos.ne' (.inl ⟨l1, l2⟩)) _).mp ⟨v, hv⟩ st hst r hrm e ?_
      rw [e2, hz, toOtherWidth_eq_zero]
    · intro hg x hx
      obtain ⟨-, l1, l2⟩ := (hin x).mp hx
      have := hradii x (.inl ⟨l1, l2⟩)
      exact h2 x (h0.trans_le l1).ne' this.1 this.2 fun lv hlv r hrm e => hg lv hlv r hrm (e ▸ l1) (e ▸ l2)

/-- C75, unresolved ranges: a range that makes sense physically has cross sections at all points of its
grid, if its tables cover it. -/
theorem C75_unresolved {d : AverageParameters} (hm : Makes tables.linLin)
    (hc : Conforms .linLin tables.linLin) (htype : range.type = 2)
    (hd : averageParameters range.lower range.upper range.parameters = some d)
    (ht : Option.Rel (IsRadiusTable tables) range.scatteringRadius nro)
    (h : PhysicalAverages neutronMass A d) {channel scattering : ℝ → Outcome ℝ}
    (hr : IsRadii d.ap nro range.naps (A * neutronMass) channel scattering) (h0 : 0 < range.lower)
    (hradii : ∀ E, range.lower ≤ E → E ≤ range.upper →
      (∃ a, 0 < a ∧ channel E = .ok a) ∧ ∃ b, scattering E = .ok b)
    (hcover : ∀ g ∈ d.groups, (∃ r ∈ g.rows, r.energy ≤ range.lower) ∧ ∃ r ∈ g.rows, range.upper ≤ r.energy) :
    ∃ R, fromENDF K lib tables reactions initialBreitWigner initial neutronMass elementaryCharge incident
        target range = .ok R ∧
      ∀ fuel points, R.grid K lib fuel = .ok (some points) → ∀ x ∈ points, ∃ v, R.call K lib x = .ok v := by
  obtain ⟨R, h1, h2⟩ := C67_accepted (K := K) (lib := lib) (tables := tables) (reactions := reactions)
    (initialBreitWigner := initialBreitWigner) (initial := initial) (elementaryCharge := elementaryCharge)
    (incident := incident) (target := target) hm hc htype hd ht h hr
  obtain ⟨b1, b2, -⟩ := C47_dispatch h1
  refine ⟨R, h1, fun fuel points hg x hx => ?_⟩
  obtain ⟨all, -, -, h3⟩ := Reconstructor.C41_grid (.start) hg
  obtain ⟨-, l1, l2⟩ := (h3 x).mp hx
  rw [b1] at l1
  rw [b2] at l2
  obtain ⟨r1, r2⟩ := hradii x l1 l2
  refine h2 x (h0.trans_le l1) r1 r2 fun g hg => ?_
  obtain ⟨⟨r, hr, e⟩, r', hr', e'⟩ := hcover g hg
  exact ⟨⟨r, hr, e.trans l1⟩, r', hr', l2.trans e'⟩

/-- C75, R-matrix-limited ranges with charged particles: a range that makes sense physically and whose channels
work at the resonances has a grid, and has cross sections at all points of it at which the channels work if no
resonance of the range lacks a capture width.

What is missing from the full statement: the energies of resonances without capture width, where there are
none, see `C75_disproved`, and points at which the channels do not work. -/
theorem C75_charged_partial {p : RMatrixLimited} {pairs : List ParticlePair} {pair : ParticlePair}
    (ht : range.type = 1 ∧ range.representation = 7) (hp : range.parameters = .rmatrixLimited p)
    (hr : range.scatteringRadius = none)
    (h : AdmissibleRMatrix reactions neutronMass elementaryCharge incident target p pairs pair)
    (hwork : ∀ record ∈ p.spinGroups, ∀ v ∈ record.resonances, p.reducedWidths = 0 ∨ 0 < v.1 →
      WorkingEnergy K lib p pairs pair v.1) :
    ∃ R points, fromENDF K lib tables reactions initialBreitWigner initial neutronMass elementaryCharge
        incident target range = .ok R ∧ (∀ fuel, R.grid K lib fuel = .ok (some points)) ∧
      ((∀ record ∈ p.spinGroups, ∀ v ∈ record.resonances, range.lower ≤ v.1 → v.1 ≤ range.upper →
          ∃ (i : ℕ) (row : ChannelRow) (width : ℝ), record.channels[i]? = some row ∧ Captures p row ∧
            v.2[i]? = some width ∧ width ≠ 0) →
        ∀ x ∈ points, WorkingEnergy K lib p pairs pair x → ∃ v, R.call K lib x = .ok v) := by
  obtain ⟨R, h1, h2⟩ := C70_charged_accepted (K := K) (lib := lib) (tables := tables) (reactions := reactions)
    (initialBreitWigner := initialBreitWigner) (initial := initial) (elementaryCharge := elementaryCharge)
    (incident := incident) (target := target) ht hp hr h
    fun hred record hrec v hv => hwork record hrec v hv (.inl hred)
  obtain ⟨b1, b2, -, nro', -, h4⟩ := C47_dispatch h1
  rw [hp] at h4
  have hgrid : ∀ s, makeRMatrixCompoundSystem K lib initial reactions neutronMass elementaryCharge incident
      target p = .ok s → ∃ all, s.grid K lib = .ok all := by
    intro s hs
    refine system_grid_exists (fun st hst => (AdmissibleRMatrix.system_states h hs hst).2.1)
      fun st hst r hrm h0 c hcm => ?_
    obtain ⟨-, -, k1, k2⟩ := AdmissibleRMatrix.system_states h hs hst
    obtain ⟨record, hrec, u, hu, e, -⟩ := k2 r hrm
    obtain ⟨w1, w2⟩ := k1 r.energy (e ▸ hwork record hrec u hu (.inr (e ▸ h0))) c hcm
    have hv := w1.values
    exact ⟨hv.1, hv.2.1, hv.2.2.1, hv.2.2.2, w2⟩
  obtain ⟨all, hall⟩ : ∃ all, ∀ fuel, R.system.grid K lib fuel = .ok (some all) := by
    cases hs : R.system with
    | shiftFactor s =>
      rw [hs] at h4
      obtain ⟨all, hall⟩ := hgrid s h4
      exact ⟨all, fun _ => by simp only [SystemVariant.grid, bind, Except.bind, hall]; rfl⟩
    | constant s =>
      rw [hs] at h4
      obtain ⟨all, hall⟩ := hgrid s h4
      exact ⟨all, fun _ => by simp only [SystemVariant.grid, bind, Except.bind, hall]; rfl⟩
    | _ => rw [hs] at h4; exact h4.elim
  refine ⟨R, _, h1, fun fuel => by unfold Reconstructor.grid; rw [hall fuel]; rfl, ?_⟩
  intro hcap x hx hrow
  obtain ⟨-, h5⟩ := List.mem_filter.mp hx
  simp only [decide_eq_true_eq] at h5
  rw [b1, b2] at h5
  exact h2 x hrow fun record hrec v hv e => hcap record hrec v hv (e ▸ h5.1) (e ▸ h5.2)

/-- C75, R-matrix-limited ranges: a range that makes sense physically has a grid, and has cross sections at
all points of it if none of them is a threshold and no resonance of the range lacks a capture width.

What is missing from the full statement: the energies of resonances without capture width, where there are
none, see `C75_disproved`, and points that happen to be thresholds. -/
theorem C75_rmatrix_partial {p : RMatrixLimited} {pairs : List ParticlePair} {pair : ParticlePair}
    (ht : range.type = 1 ∧ range.representation = 7) (hp : range.parameters = .rmatrixLimited p)
    (hr : range.scatteringRadius = none)
    (h : PhysicalRMatrix reactions neutronMass elementaryCharge incident target p pairs pair)
    (hthreshold : ∀ record ∈ p.spinGroups, ∀ v ∈ record.resonances, 0 < v.1 →
      ∀ row ∈ p.pairs, pair.massRatio * v.1 + row.q ≠ 0) :
    ∃ R points, fromENDF K lib tables reactions initialBreitWigner initial neutronMass elementaryCharge
        incident target range = .ok R ∧ (∀ fuel, R.grid K lib fuel = .ok (some points)) ∧
      ((∀ record ∈ p.spinGroups, ∀ v ∈ record.resonances, range.lower ≤ v.1 → v.1 ≤ range.upper →
          ∃ (i : ℕ) (row : ChannelRow) (width : ℝ), record.channels[i]? = some row ∧ Captures p row ∧
            v.2[i]? = some width ∧ width ≠ 0) →
        ∀ x ∈ points, (∀ row ∈ p.pairs, pair.massRatio * x + row.q ≠ 0) → ∃ v, R.call K lib x = .ok v) := by
  obtain ⟨R, points, h1, h2, h3⟩ := C75_charged_partial (K := K) (lib := lib) (tables := tables)
    (reactions := reactions) (initialBreitWigner := initialBreitWigner) (initial := initial)
    (elementaryCharge := elementaryCharge) (incident := incident) (target := target) ht hp hr
    (PhysicalRMatrix.admissible h) fun record hrec v hv hor => PhysicalRMatrix.working h (hor.elim
      (fun hred => h.thresholds hred record hrec v hv) (hthreshold record hrec v hv))
  exact ⟨R, points, h1, h2, fun hcap x hx hrow => h3 hcap x hx (PhysicalRMatrix.working h hrow)⟩

/-! ## A resonance without capture width -/

/-- C75 as a user would expect it of Reich-Moore ranges with constant radii: there are cross sections at
all points of the grid. -/
def C75_claim : Prop :=
  ∀ (K : Constants) (lib : CoulombLibrary) (tables : InterpolationLibrary) (reactions : ReactionLibrary)
    (initialBreitWigner : Channel → Verif.BreitWigner.Cache)
    (initial : (g : SpinGroup) → MatrixCache g.channels.length) (neutronMass elementaryCharge A : ℝ)
    (incident target : Str) (range : Range) (p : ReichMoore) (R : Reconstructor) (fuel : ℕ)
    (points : List ℝ),
    range.parameters = .reichMoore p → range.scatteringRadius = none →
    PhysicalReichMoore neutronMass A none range.naps p → 0 < range.lower →
    fromENDF K lib tables reactions initialBreitWigner initial neutronMass elementaryCharge incident target
      range = .ok R → R.grid K lib fuel = .ok (some points) →
    ∀ x ∈ points, ∃ v, R.call K lib x = .ok v

namespace Example

/-- An s-wave resonance at energy 1 with the given capture width. -/
noncomputable def swave (gamma : ℝ) : ReichMoore :=
  ⟨1 / 2, 1 / 2, 1, [⟨0, 10, 0, [⟨1, 0, 1, gamma, 0, 0⟩]⟩]⟩

theorem swave_physical (gamma : ℝ) : PhysicalReichMoore 1 10 none 1 (swave gamma) := by
  refine ⟨one_pos, by norm_num, by simp [swave], ⟨1, by norm_num [swave]⟩, by simp [swave],
    by simp [swave], by simp [swave], by simp [swave], ⟨?_, ?_⟩, ?_, by simp [swave], ?_, ?_⟩
  · intro lv hlv r hr
    simp only [swave, List.mem_singleton] at hlv
    subst hlv
    simp only [List.mem_singleton] at hr
    subst hr
    exact ⟨by norm_num [swave], 0, ⟨by norm_num [swave], by norm_num [swave], 1,
      by norm_num [swave]⟩, by norm_num, by norm_num, 0, by norm_num⟩
  · intro lv hlv r hr r' hr' h0
    simp only [swave, List.mem_singleton] at hlv
    subst hlv
    simp only [List.mem_singleton] at hr
    subst hr
    exact absurd rfl h0
  · intro lv hlv r hr r' hr' h0
    simp only [swave, List.mem_singleton] at hlv
    subst hlv
    simp only [List.mem_singleton] at hr
    subst hr
    exact absurd rfl h0
  · intro J parity
    refine List.Nodup.sublist ((List.filter_sublist).map _) ?_
    by_cases h1 : (1 : ℤ) = parity
    · simp [swave, h1]
    · simp [swave, h1]
  · intro lv hlv
    refine ⟨_, _, radii _ _, fun r hr => ⟨lengthOf (swave gamma) lv, ?_, rfl⟩⟩
    simp only [swave, List.mem_singleton] at hlv
    subst hlv
    norm_num [lengthOf, swave]

theorem swave_grid (gamma : ℝ) (K : Constants) (lib : CoulombLibrary) (tables : InterpolationLibrary)
    (reactions : ReactionLibrary) (initialBreitWigner : Channel → Verif.BreitWigner.Cache)
    (initial : (g : SpinGroup) → MatrixCache g.channels.length) (elementaryCharge : ℝ) (incident target : Str) :
    ∃ R points, fromENDF K lib tables reactions initialBreitWigner initial 1 elementaryCharge incident target
        ⟨1 / 2, 2, 1, 3, 1, none, .reichMoore (swave gamma)⟩ = .ok R ∧
      (∀ fuel, R.grid K lib fuel = .ok (some points)) ∧ 1 ∈ points ∧
      ((∀ x ∈ points, ∃ v, R.call K lib x = .ok v) ↔ gamma ≠ 0) := by
  obtain ⟨R, points, h1, h2, h3, h4⟩ := C75_reich_moore (K := K) (lib := lib) (tables := tables)
    (reactions := reactions) (initialBreitWigner := initialBreitWigner) (initial := initial)
    (elementaryCharge := elementaryCharge) (incident := incident) (target := target) (neutronMass := 1)
    (A := 10) (range := ⟨1 / 2, 2, 1, 3, 1, none, .reichMoore (swave gamma)⟩) ⟨rfl, rfl⟩ rfl .none
    (swave_physical gamma) (by norm_num) (fun E _ => ⟨radiiAt (by norm_num [swave]) _ _, fun lv hlv => by
      refine radiiAt ?_ _ _
      simp only [swave, List.mem_singleton] at hlv
      subst hlv
      norm_num [lengthOf, swave]⟩)
  refine ⟨R, points, h1, h2, ?_, h4.trans ⟨fun h => ?_, fun h lv hlv r hr _ _ => ?_⟩⟩
  · exact h3 _ (List.mem_singleton.mpr rfl) _ (List.mem_singleton.mpr rfl) (by norm_num) (by norm_num)
  · exact h _ (List.mem_singleton.mpr rfl) _ (List.mem_singleton.mpr rfl) (by norm_num) (by norm_num)
  · simp only [swave, List.mem_singleton] at hlv
    subst hlv
    simp only [List.mem_singleton] at hr
    subst hr
    exact h

/-- The compound system of this evaluation, and its spin groups, meet the hypotheses of `C75_system` and
`C75_group`. -/
example (gamma : ℝ) (K : Constants) (lib : CoulombLibrary)
    (initial : (g : SpinGroup) → MatrixCache g.channels.length) (incident target : Str) :
    ∃ (s : CompoundSystem) (points : List ℝ), s.grid K lib = .ok points ∧ 1 ∈ points ∧
      (∀ st ∈ s, st.group.Built ∧ (∃ own, st.group.grid K lib = .ok own) ∧
        (∀ r ∈ st.group.table.resonances, r.widths.length = st.group.channels.length) ∧
        ∀ x, 0 < x → ∀ c ∈ st.group.channels, FunctionsAt K lib x c) ∧
      ((∀ x ∈ points, 0 < x → ∃ v, CompoundSystem.evaluate .shiftFactor K lib x s (fun _ => none) = .ok v) ↔
        gamma ≠ 0) := by
  have h := swave_physical gamma
  obtain ⟨s, hs⟩ := (C29_accepted (K := K) (lib := lib) initial incident target h.mass h.spin h.some
    h.distinct (PhysicalReichMoore.usable h)).mpr ⟨h.waves.1, h.coupled, h.fission⟩
  obtain ⟨g1, g2⟩ := reichMoore_groups h hs
  have hf : ∀ st ∈ s, ∀ x, 0 < x → ∀ c ∈ st.group.channels, FunctionsAt K lib x c :=
    fun st hst x hx c hc => ((g1 st hst).2.2.1 x hx.ne' (radiiAt (by norm_num [swave]) _ _) (by
      intro lv hlv
      refine radiiAt ?_ _ _
      simp only [swave, List.mem_singleton] at hlv
      subst hlv
      norm_num [lengthOf, swave]) c hc).functions
  obtain ⟨points, hp⟩ := system_grid_exists (K := K) (lib := lib) (fun st hst => (g1 st hst).2.1)
    fun st hst r _ h0 => hf st hst _ h0
  obtain ⟨st, hst, r, hr, e1, e2⟩ := g2 _ (List.mem_singleton.mpr rfl) _ (List.mem_singleton.mpr rfl)
  obtain ⟨own, hown⟩ := system_grid_groups hp st hst
  obtain ⟨G, hG⟩ := (C40_group_exists (g1 st hst).2.1).mp ⟨own, hown⟩ r hr (e1 ▸ one_pos)
  refine ⟨s, points, hp, ?_, fun st hst => ⟨(g1 st hst).1, system_grid_groups hp st hst, (g1 st hst).2.1,
    hf st hst⟩, ?_⟩
  · exact ((C40_system (fun st hst => (g1 st hst).2.1) hp).2 _).mpr ⟨st, hst, r, hr, e1 ▸ one_pos, G, hG,
      .inr (.inl e1.symm)⟩
  · rw [C75_system (fun st hst => (g1 st hst).1) (fun st hst => (g1 st hst).2.1) hp
      fun x _ h0 st hst => hf st hst x h0]
    constructor
    · intro k h0
      exact k st hst r hr (e1 ▸ one_pos) (by rw [e2, toOtherWidth_eq_zero]; exact h0)
    · intro hg st' hst' r' hr' _
      obtain ⟨lv, hlv, r'', hr'', -, k2⟩ := (g1 st' hst').2.2.2 r' hr'
      rw [k2]
      simp only [swave, List.mem_singleton] at hlv
      subst hlv
      simp only [List.mem_singleton] at hr''
      subst hr''
      exact toOtherWidth_ne_zero hg

/-- A single-level or multi-level range. -/
example (K : Constants) (lib : CoulombLibrary) (tables : InterpolationLibrary) (reactions : ReactionLibrary)
    (initialBreitWigner : Channel → Verif.BreitWigner.Cache)
    (initial : (g : SpinGroup) → MatrixCache g.channels.length) (multi : Bool) :
    ∃ R points, fromENDF K lib tables reactions initialBreitWigner initial 1 1 "n".toList "X".toList
        (BreitWignerExample.endfRange multi) = .ok R ∧ (∀ fuel, R.grid K lib fuel = .ok (some points)) ∧
      ∀ x ∈ points, ∃ v, R.call K lib x = .ok v :=
  C75_breit_wigner (multi := multi) ⟨rfl, rfl⟩ rfl .none BreitWignerExample.physical
    (by norm_num [BreitWignerExample.endfRange]) fun E _ _ => BreitWignerExample.hasRadii E

/-- An unresolved range. -/
example (K : Constants) (lib : CoulombLibrary) (reactions : ReactionLibrary)
    (initialBreitWigner : Channel → Verif.BreitWigner.Cache)
    (initial : (g : SpinGroup) → MatrixCache g.channels.length) :
    ∃ R, fromENDF K lib UnresolvedExample.library reactions initialBreitWigner initial 1 1 "n".toList
        "X".toList UnresolvedExample.endfRange = .ok R ∧
      ∀ fuel points, R.grid K lib fuel = .ok (some points) → ∀ x ∈ points, ∃ v, R.call K lib x = .ok v :=
  C75_unresolved (d := UnresolvedExample.averages) UnresolvedExample.linear_makes
    UnresolvedExample.linear_conforms rfl UnresolvedExample.averages_eq .none UnresolvedExample.physical
    (channel := fun _ => .ok (1 / 2)) (scattering := fun _ => .ok (1 / 2)) (BreitWignerExample.radii _)
    (by norm_num [UnresolvedExample.endfRange])
    (fun _ _ _ => ⟨⟨1 / 2, by norm_num, rfl⟩, 1 / 2, rfl⟩) (by
      intro g hg
      simp only [UnresolvedExample.averages, List.mem_cons, List.not_mem_nil, or_false] at hg
      rcases hg with rfl | rfl
      · exact ⟨⟨_, List.mem_cons_self, by norm_num [UnresolvedExample.endfRange]⟩, _,
          List.mem_cons_of_mem _ (List.mem_cons_of_mem _ List.mem_cons_self),
          by norm_num [UnresolvedExample.endfRange]⟩
      · exact ⟨⟨_, List.mem_cons_self, by norm_num [UnresolvedExample.endfRange]⟩, _,
          List.mem_cons_of_mem _ List.mem_cons_self, by norm_num [UnresolvedExample.endfRange]⟩)

/-- An R-matrix-limited range. -/
example (K : Constants) (lib : CoulombLibrary) (tables : InterpolationLibrary)
    (initialBreitWigner : Channel → Verif.BreitWigner.Cache)
    (initial : (g : SpinGroup) → MatrixCache g.channels.length) :
    ∃ R points, fromENDF K lib tables reactionLibrary initialBreitWigner initial 1 1 "n".toList "Cl35".toList
        (waveRange 0 0) = .ok R ∧ (∀ fuel, R.grid K lib fuel = .ok (some points)) ∧
      ∀ x ∈ points, ∃ v, R.call K lib x = .ok v := by
  have hrow : ∀ x, 0 < x → ∀ row ∈ (waveEvaluation 0 0).pairs, neutronPair.massRatio * x + row.q ≠ 0 := by
    intro x hx row hrow
    simp only [waveEvaluation, flagRows, List.mem_cons, List.not_mem_nil, or_false] at hrow
    have : 0 < neutronPair.massRatio := by norm_num [neutronPair]
    rcases hrow with rfl | rfl <;> positivity
  obtain ⟨R, points, h1, h2, h3⟩ := C75_rmatrix_partial (K := K) (lib := lib) (tables := tables)
    (initialBreitWigner := initialBreitWigner) (initial := initial) (range := waveRange 0 0) ⟨rfl, rfl⟩ rfl rfl
    (wave_physical 0 0) fun record hr v hv h0 => hrow v.1 h0
  refine ⟨R, points, h1, h2, fun x hx => ?_⟩
  refine h3 ?_ x hx (hrow x ?_)
  · intro record hr v hv _ _
    obtain rfl := List.mem_singleton.mp hr
    obtain rfl := List.mem_singleton.mp hv
    exact ⟨0, _, 1, rfl, ⟨_, rfl, rfl⟩, rfl, one_ne_zero⟩
  · obtain ⟨all, -, -, k⟩ := Reconstructor.C41_grid .start (h2 0)
    have := ((k x).mp hx).2.1
    rw [(C47_dispatch h1).1] at this
    exact one_pos.trans_le this

end Example

/-- C75 does not hold: at the energy of a resonance without capture width, which is a point of the grid,
the R-matrix has a pole and there are no finite cross sections. -/
theorem C75_disproved : ¬ C75_claim := by
  intro h
  obtain ⟨R, points, h1, h2, -, h3⟩ := Example.swave_grid 0 ⟨1, 1, one_pos, one_pos⟩
    (fun _ _ _ => .error .throws) ⟨fun _ _ => .error .throws, fun _ _ => .error .throws,
      fun _ _ => .error .throws, fun _ _ => .error .throws, fun _ _ => .error .throws, fun _ => .error .throws⟩
    (fun _ _ _ => .error .throws) (fun _ => ⟨[], [], [], [], [], []⟩) (fun _ => ⟨0, 0, 0⟩) 1 "n".toList "X".toList
  exact h3.mp (h _ _ _ _ _ _ 1 1 10 _ _ _ _ R 0 points rfl rfl (Example.swave_physical 0) (by norm_num) h1
    (h2 0)) rfl

end Verif.Endf
