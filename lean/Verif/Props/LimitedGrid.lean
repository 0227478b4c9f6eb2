import Verif.Props.GridPoints
import Verif.Props.LimitedEnergies

/-!
# Properties C19 and C75: thresholds when all resonances have a capture width
-/

namespace Verif

/-- C19 when all resonances have an eliminated width: evaluation returns finite numbers whenever the channel
functions do and the penetrabilities are not negative. Channels may be at their threshold, with any boundary
conditions. -/
theorem C19_captures {option : BoundaryOption} {K : Constants} {lib : CoulombLibrary} {g : SpinGroup} {E : ℝ}
    (hg : g.Built) {P S w phi : Fin g.channels.length → ℝ}
    (hP : ∀ i : Fin g.channels.length, g.channels[i].penetrability K lib E = .ok (P i))
    (hS : option = .constant →
      ∀ i : Fin g.channels.length, g.channels[i].shiftFactor K lib E = .ok (S i))
    (hw : ∀ i : Fin g.channels.length, g.channels[i].coulombPhaseShift K E = .ok (w i))
    (hphi : ∀ i : Fin g.channels.length, g.channels[i].phaseShift K lib E = .ok (phi i))
    (hnn : ∀ i, 0 ≤ P i)
    (hwidths : ∀ r ∈ g.table.resonances, r.widths.length = g.channels.length)
    (hel : ∀ r ∈ g.table.resonances, r.eliminated ≠ 0)
    (hk : ∀ c ∈ g.channels, c.pair.id = c.incident.id → c.waveNumber K E ≠ 0)
    (cache : MatrixCache g.channels.length) (result : CrossSectionMap) (tresult : Str → Option ℂ) :
    (∃ r, g.evaluate option K lib E cache result = .ok r) ∧
      ∃ r, g.evaluateTMatrix option K lib E cache tresult = .ok r := by
  have hfind : ∃ c, g.channels.find? Channel.isIncident = some c ∧ c.waveNumber K E ≠ 0 := by
    obtain ⟨c, hc, hinc⟩ := ((C24_accepted _ _).mp ⟨g, hg⟩).hasIncident
    cases hf : g.channels.find? Channel.isIncident with
    | none =>
      have := List.find?_eq_none.mp hf c hc
      simp [Channel.isIncident, hinc] at this
    | some d =>
      refine ⟨d, rfl, hk d (List.mem_of_find?_eq_some hf) ?_⟩
      have := List.find?_some hf
      simpa [Channel.isIncident] using this
  have hev : Spec.Evaluable option K lib g.channels g.table.resonances E P S w phi :=
    ⟨hP, hS, hw, hphi, hnn, hwidths, fun r hr hor => hel r hr hor.2, capture_det hnn hel, hfind⟩
  exact ⟨evaluate_ok_of hg hev cache result, evaluateTMatrix_ok_of hev cache tresult⟩

namespace Endf

open Spec

variable {K : Constants} {lib : CoulombLibrary} {tables : InterpolationLibrary} {reactions : ReactionLibrary}
  {initialBreitWigner : Channel → Verif.BreitWigner.Cache}
  {initial : (g : SpinGroup) → MatrixCache g.channels.length} {neutronMass elementaryCharge : ℝ}
  {incident target : Str} {range : Range}

/-- C75, R-matrix-limited ranges without charged particles: a range that makes sense physically, above the energy
zero and without energy release in elastic scattering, has a grid, and has cross sections at all points of it if
no resonance of the range lacks a capture width. Resonances and points may be at thresholds: there the channels
have the boundary conditions of the threshold, or all resonances, in and out of the range, have a capture
width. -/
theorem C75_rmatrix {p : RMatrixLimited} {pairs : List ParticlePair} {pair : ParticlePair}
    (ht : range.type = 1 ∧ range.representation = 7) (hp : range.parameters = .rmatrixLimited p)
    (hr : range.scatteringRadius = none)
    (h : PhysicalRMatrix reactions neutronMass elementaryCharge incident target p pairs pair)
    (h0 : 0 < range.lower) (hq : ∀ row ∈ p.pairs, row.mt = 2 → row.q = 0) :
    ∃ R points, fromENDF K lib tables reactions initialBreitWigner initial neutronMass elementaryCharge
        incident target range = .ok R ∧ (∀ fuel, R.grid K lib fuel = .ok (some points)) ∧
      ((∀ record ∈ p.spinGroups, ∀ v ∈ record.resonances, range.lower ≤ v.1 → v.1 ≤ range.upper →
          ∃ (i : ℕ) (row : ChannelRow) (width : ℝ), record.channels[i]? = some row ∧ Captures p row ∧
            v.2[i]? = some width ∧ width ≠ 0) →
        ∀ x ∈ points, (∀ row ∈ p.pairs, pair.massRatio * x + row.q ≠ 0) ∨
          SettledThresholds p pair.massRatio x ∨ AllCapture p → ∃ v, R.call K lib x = .ok v) := by
  have hratio : 0 < pair.massRatio := by
    obtain ⟨j, r, e1, e2, e3⟩ := h.elastic
    exact (PhysicalRMatrix.pair_positive h e1 e3 (by rw [e2]; unfold Emits; decide)).1
  obtain ⟨R, h1, h2⟩ := C70_charged_accepted (K := K) (lib := lib) (tables := tables) (reactions := reactions)
    (initialBreitWigner := initialBreitWigner) (initial := initial) (elementaryCharge := elementaryCharge)
    (incident := incident) (target := target) ht hp hr (PhysicalRMatrix.admissible h)
    fun hred record hrec v hv => PhysicalRMatrix.working h (h.thresholds hred record hrec v hv)
  obtain ⟨b1, b2, -, nro', -, h4⟩ := C47_dispatch h1
  rw [hp] at h4
  have hgrid : ∀ s, makeRMatrixCompoundSystem K lib initial reactions neutronMass elementaryCharge incident
      target p = .ok s → ∃ all, s.grid K lib = .ok all := by
    intro s hs
    have hg : ∀ st ∈ s, ∃ points, st.group.grid K lib = .ok points := by
      intro st hst
      refine (C40_group_exists
        (AdmissibleRMatrix.system_states (PhysicalRMatrix.admissible h) hs hst).2.1).mpr fun r hr h0 => ?_
      choose P S w phi hv using fun i : Fin st.group.channels.length =>
        (PhysicalRMatrix.facts h hs hst (List.getElem_mem i.isLt)).values (K := K) (lib := lib)
          (E₀ := r.energy)
      exact ⟨_, P, fun i => (hv i).1, rfl⟩
    obtain ⟨grids, hgrids⟩ := mapM_exists.mpr hg
    unfold CompoundSystem.grid
    rw [hgrids]
    exact ⟨_, rfl⟩
  obtain ⟨all, hall⟩ : ∃ all, ∀ fuel, R.system.grid K lib fuel = .ok (some all) := by
    cases hs : R.system with
    | shiftFactor s =>
      rw [hs] at h4
      obtain ⟨all, hall⟩ := hgrid s h4
      exact ⟨all, fun _ => by simp only [SystemVariant.grid, bind, Except.bind, hall]; rfl⟩
    | constant s =>
      rw [hs] at h4
      obtain ⟨all, hall⟩ := hgrid s h4
      exact ⟨all, fun _ => by simp only [SystemVariant.grid, bind, Except.bind, hall]; rfl⟩
    | _ => rw [hs] at h4; exact h4.elim
  refine ⟨R, _, h1, fun fuel => by unfold Reconstructor.grid; rw [hall fuel]; rfl, ?_⟩
  intro hcap x hx hor
  obtain ⟨-, h5⟩ := List.mem_filter.mp hx
  simp only [decide_eq_true_eq] at h5
  rw [b1, b2] at h5
  have hpole := fun record hrec v hv (e : v.1 = x) => hcap record hrec v hv (e ▸ h5.1) (e ▸ h5.2)
  rcases hor with hrow | hor
  · exact h2 x (PhysicalRMatrix.working h hrow) hpole
  · refine C70_thresholds h1 hp h (fun row hrow hmt => ?_) hor hpole
    rw [hq row hrow hmt, add_zero]
    exact (mul_pos hratio (h0.trans_le h5.1)).ne'

namespace Example

/-- An s-wave resonance with J = 2 at the energy 36, where inelastic scattering begins, with a boundary condition of
that channel which is not the one of the threshold. -/
noncomputable def edgeRecord : SpinGroupRecord :=
  ⟨2, 0, [⟨1, 0, 2, 0, 1 / 2, 1 / 2⟩, ⟨2, 0, 2, 0, 1 / 2, 1 / 2⟩, ⟨3, 0, 2, 7, 1 / 2, 1 / 2⟩], 1,
    [(36, [1, 1, 1])]⟩

noncomputable def edgeEvaluation (flag : ℤ) : RMatrixLimited := ⟨3, 1, levelRows flag, [edgeRecord]⟩

/-- Its range. -/
noncomputable def edgeRange (flag : ℤ) : Range :=
  ⟨1, 100, 1, 7, 0, none, .rmatrixLimited (edgeEvaluation flag)⟩

theorem edgeRecord_ordered (flag : ℤ) :
    Ordered [photonPair, neutronPair, excitedPair] (edgeEvaluation flag) edgeRecord where
  count := by simp [edgeRecord, edgeEvaluation, levelRows]
  number := by
    intro row hrow
    simp only [edgeRecord, List.mem_cons, List.not_mem_nil, or_false] at hrow
    rcases hrow with rfl | rfl | rfl <;> simp [edgeEvaluation, levelRows]
  type := by
    intro i row hi pair here there h1 h2 h3
    have : row.pairNumber = i + 1 := by
      match i with
      | 0 => cases hi; rfl
      | 1 => cases hi; rfl
      | 2 => cases hi; rfl
      | i + 3 => simp [edgeRecord] at hi
    rw [this] at h3
    obtain rfl : here = there := Option.some.inj (h1.symm.trans h3)
    exact ⟨_, isType_channelType _ _, isType_channelType _ _⟩
  capture := by
    have h : ∀ (i : ℕ) row, edgeRecord.channels[i]? = some row → Captures (edgeEvaluation flag) row →
        i = 0 := by
      intro i row hi hc
      match i with
      | 0 => rfl
      | 1 =>
        cases hi
        obtain ⟨pr, h1, h2⟩ := hc
        cases h1
        norm_num at h2
      | 2 =>
        cases hi
        obtain ⟨pr, h1, h2⟩ := hc
        cases h1
        norm_num at h2
      | i + 3 => simp [edgeRecord] at hi
    intro i j x y hi hj hx hy
    rw [h i x hi hx, h j y hj hy]
  energies := by simp [edgeRecord]
  resonances := by simp [edgeRecord]

theorem edge_physical (flag : ℤ) : PhysicalRMatrix levelLibrary 1 1 "n".toList "Cl35".toList
    (edgeEvaluation flag) [photonPair, neutronPair, excitedPair] neutronPair where
  formalism := rfl
  described := isPairs_of (p := edgeEvaluation flag) (level_pairs flag)
  distinct := by simp [photonPair, neutronPair, excitedPair]
  neutral := by
    intro row hrow
    simp only [edgeEvaluation, levelRows, List.mem_cons, List.not_mem_nil, or_false] at hrow
    rcases hrow with rfl | rfl | rfl <;> rfl
  masses := by
    intro row hrow he
    simp only [edgeEvaluation, levelRows, List.mem_cons, List.not_mem_nil, or_false] at hrow
    rcases hrow with rfl | rfl | rfl
    · simp [Emits] at he
    · norm_num
    · norm_num
  elastic := ⟨1, _, rfl, rfl, rfl⟩
  capture := ⟨_, List.mem_cons_self, rfl⟩
  some := by simp [edgeEvaluation]
  ordered := by
    intro record hr
    obtain rfl := List.mem_singleton.mp hr
    exact edgeRecord_ordered flag
  groups := List.pairwise_singleton _ _
  spins := by
    intro record hr
    obtain rfl := List.mem_singleton.mp hr
    refine ⟨⟨4, by norm_num [edgeRecord]⟩, fun row hrow => ⟨4, ?_⟩⟩
    simp only [edgeRecord, List.mem_cons, List.not_mem_nil, or_false] at hrow
    rcases hrow with rfl | rfl | rfl <;> norm_num
  entrance := by
    intro record hr
    obtain rfl := List.mem_singleton.mp hr
    exact ⟨_, List.mem_cons_of_mem _ List.mem_cons_self, _, rfl, rfl⟩
  channels := by
    intro record hr
    obtain rfl := List.mem_singleton.mp hr
    simp [edgeRecord]
  widths := by
    intro record hr v hv
    obtain rfl := List.mem_singleton.mp hr
    obtain rfl := List.mem_singleton.mp hv
    simp [edgeRecord]
  particles := by
    intro record hr row hrow pr h1 he
    obtain rfl := List.mem_singleton.mp hr
    simp only [edgeRecord, List.mem_cons, List.not_mem_nil, or_false] at hrow
    rcases hrow with rfl | rfl | rfl <;> norm_num
  thresholds := by
    intro h
    simp [edgeEvaluation] at h

theorem edge_captures (flag : ℤ) : AllCapture (edgeEvaluation flag) := by
  intro record hr v hv
  obtain rfl := List.mem_singleton.mp hr
  obtain rfl := List.mem_singleton.mp hv
  exact ⟨0, _, 1, rfl, ⟨_, rfl, rfl⟩, rfl, one_ne_zero⟩

/-- C75 applies to this range: it has cross sections at all points of its grid. -/
example (K : Constants) (lib : CoulombLibrary) (tables : InterpolationLibrary)
    (initialBreitWigner : Channel → Verif.BreitWigner.Cache)
    (initial : (g : SpinGroup) → MatrixCache g.channels.length) (flag : ℤ) :
    ∃ R points, fromENDF K lib tables levelLibrary initialBreitWigner initial 1 1 "n".toList "Cl35".toList
        (edgeRange flag) = .ok R ∧ (∀ fuel, R.grid K lib fuel = .ok (some points)) ∧
      ∀ x ∈ points, ∃ v, R.call K lib x = .ok v := by
  obtain ⟨R, points, h1, h2, h3⟩ := C75_rmatrix (K := K) (lib := lib) (tables := tables)
    (initialBreitWigner := initialBreitWigner) (initial := initial) (range := edgeRange flag) ⟨rfl, rfl⟩ rfl
    rfl (edge_physical flag) (by norm_num [edgeRange]) (by
      intro row hrow hmt
      simp only [edgeEvaluation, levelRows, List.mem_cons, List.not_mem_nil, or_false] at hrow
      rcases hrow with rfl | rfl | rfl
      · norm_num at hmt
      · rfl
      · norm_num at hmt)
  exact ⟨R, points, h1, h2, fun x hx => h3
    (fun record hr v hv _ _ => edge_captures flag record hr v hv) x hx (.inr (.inr (edge_captures flag)))⟩

end Example

end Endf

end Verif
