import Verif.Lemmas.RMatrixAccepted

/-!
# C70: cross sections of R-matrix-limited ranges
-/

namespace Verif.Endf

open Spec Complex

variable {K : Constants} {lib : CoulombLibrary} {tables : InterpolationLibrary}
  {reactions : ReactionLibrary} {initialBreitWigner : Channel → Verif.BreitWigner.Cache}
  {initial : (g : SpinGroup) → MatrixCache g.channels.length} {neutronMass elementaryCharge E : ℝ}
  {incident target : Str} {range : Range} {p : RMatrixLimited} {R R' : Reconstructor}
  {m : ReactionMap} {pairs : List ParticlePair}

/-- C70: the cross sections that an R-matrix-limited range reports are those of the Reich-Moore formula with
the pairs, channels, levels and boundary conditions of the evaluation, summed over its spin groups.

It is proved for neutral incident particles, when the flags SHF of the pairs agree, the channels come in the
order of C30, and the energies in each group differ, as do the spins and parities of the groups. What is
missing from the full statement: the other cases, see `C70_disproved`. -/
theorem C70_partial
    (hR : fromENDF K lib tables reactions initialBreitWigner initial neutronMass elementaryCharge incident
      target range = .ok R)
    (hp : range.parameters = .rmatrixLimited p)
    (hpairs : List.Forall₂ (IsPair reactions neutronMass elementaryCharge incident target) p.pairs pairs)
    (hids : (pairs.map ParticlePair.id).Nodup)
    (hflags : ∀ a ∈ p.pairs, ∀ b ∈ p.pairs, a.shiftFactorFlag = 0 → b.shiftFactorFlag = 0)
    (hneutral : ∀ row ∈ p.pairs, row.mt = 2 → row.chargeA = 0)
    (ho : ∀ record ∈ p.spinGroups, Ordered pairs p record)
    (hd : p.spinGroups.Pairwise fun a b => ¬ SameSpinParity a b)
    (hE : range.lower ≤ E ∧ E ≤ range.upper)
    (hm : R.call K lib E = .ok (m, R')) :
    ∃ (i : ℕ) (row : ParticlePairRow) (pair : ParticlePair) (gs : List RGroup),
      p.pairs[i]? = some row ∧ row.mt = 2 ∧ pairs[i]? = some pair ∧
      IsRMatrix K lib pair row.q pairs p E gs (fun id => m (.inl id)) ∧ ∀ id, m (.inr id) = none := by
  obtain ⟨h1, h2, hsup, nro, -, h4⟩ := C47_dispatch hR
  unfold Reconstructor.call at hm
  rw [h1, h2, if_pos ⟨hE.1, hE.2⟩] at hm
  obtain ⟨⟨m1, system⟩, hv, hm⟩ := bind_ok.mp hm
  cases hm
  rw [hp] at h4
  unfold SystemVariant.evaluate at hv
  have hmade : ∀ {s}, makeRMatrixCompoundSystem K lib initial reactions neutronMass elementaryCharge incident
      target p = .ok s → ∃ (i : ℕ) (row : ParticlePairRow) (pair : ParticlePair), p.pairs[i]? = some row ∧
        row.mt = 2 ∧ pairs[i]? = some pair ∧
        Pairs reactions neutronMass elementaryCharge incident target p pairs pair row.q := by
    intro s hs
    obtain ⟨-, i, row, prs, pair, a1, a2, -, a4, a5, -⟩ := C48_partial hs
    obtain rfl := pairs_eq hpairs (isPairs_of a4)
    refine ⟨i, row, pair, a1, a2, a5, hpairs, hids, ⟨i, row, a1, a5, a2, rfl⟩, ?_⟩
    rw [(forall₂_index hpairs a1 a5).charges.1, hneutral row (List.mem_of_getElem? a1) a2, zero_mul]
  cases hs : R.system with
  | shiftFactor s =>
    rw [hs] at h4 hv hsup
    dsimp only at hv
    obtain ⟨⟨m, s'⟩, hv2, hm⟩ := bind_ok.mp hv
    cases hm
    obtain ⟨i, row, pair, a1, a2, a3, a4⟩ := hmade h4
    have hown : ∀ row ∈ p.pairs, (BoundaryOption.shiftFactor = .shiftFactor ↔ row.shiftFactorFlag = 0) := by
      intro row hrow
      refine iff_of_true rfl ?_
      have hfirst : ∃ first ∈ p.pairs, first.shiftFactorFlag = 0 := by
        generalize hf : formalismOf (.shiftFactor s) = f at hsup
        cases hsup with
        | shiftFactor _ _ b3 _ b5 b6 =>
          rw [hp] at b3
          cases b3
          exact ⟨_, by rw [b5]; exact List.mem_cons_self, b6⟩
        | reichMoore _ _ b3 => rw [hp] at b3; cases b3
        | _ => cases hf
      obtain ⟨first, f1, f2⟩ := hfirst
      exact hflags first f1 row hrow f2
    obtain ⟨gs, hgs⟩ := system_rmatrix a4 ho hd hown h4 hv2
    exact ⟨i, row, pair, gs, a1, a2, a3, hgs, fun id => rfl⟩
  | constant s =>
    rw [hs] at h4 hv hsup
    dsimp only at hv
    obtain ⟨⟨m, s'⟩, hv2, hm⟩ := bind_ok.mp hv
    cases hm
    obtain ⟨i, row, pair, a1, a2, a3, a4⟩ := hmade h4
    have hown : ∀ row ∈ p.pairs, (BoundaryOption.constant = .shiftFactor ↔ row.shiftFactorFlag = 0) := by
      intro row hrow
      refine iff_of_false (by simp) ?_
      have hfirst : ∃ first ∈ p.pairs, first.shiftFactorFlag ≠ 0 := by
        generalize hf : formalismOf (.constant s) = f at hsup
        cases hsup with
        | constant _ _ b3 _ b5 b6 =>
          rw [hp] at b3
          cases b3
          exact ⟨_, by rw [b5]; exact List.mem_cons_self, b6⟩
        | _ => cases hf
      obtain ⟨first, f1, f2⟩ := hfirst
      exact fun h' => f2 (hflags row hrow first f1 h')
    obtain ⟨gs, hgs⟩ := system_rmatrix a4 ho hd hown h4 hv2
    exact ⟨i, row, pair, gs, a1, a2, a3, hgs, fun id => rfl⟩
  | singleLevel s => rw [hs] at h4; exact h4.elim
  | multiLevel s => rw [hs] at h4; exact h4.elim
  | unresolved s => rw [hs] at h4; exact h4.elim

/-- C70, acceptance with charged particles: a range that makes sense physically is accepted if, with widths
that are not reduced, its channels work at the energies of the resonances; it can be evaluated at every energy
at which the channels work and that is not the energy of a resonance without capture width. -/
theorem C70_charged_accepted {pair : ParticlePair} (ht : range.type = 1 ∧ range.representation = 7)
    (hp : range.parameters = .rmatrixLimited p) (hr : range.scatteringRadius = none)
    (h : AdmissibleRMatrix reactions neutronMass elementaryCharge incident target p pairs pair)
    (hth : p.reducedWidths = 0 → ∀ record ∈ p.spinGroups, ∀ v ∈ record.resonances,
      WorkingEnergy K lib p pairs pair v.1) :
    ∃ R, fromENDF K lib tables reactions initialBreitWigner initial neutronMass elementaryCharge incident
        target range = .ok R ∧
      ∀ E, WorkingEnergy K lib p pairs pair E →
        (∀ record ∈ p.spinGroups, ∀ v ∈ record.resonances, v.1 = E →
          ∃ (i : ℕ) (row : ChannelRow) (width : ℝ), record.channels[i]? = some row ∧ Captures p row ∧
            v.2[i]? = some width ∧ width ≠ 0) →
        ∃ v, R.call K lib E = .ok v := by
  obtain ⟨s, hs⟩ := AdmissibleRMatrix.system_exists h hth initial
  have hpairs : ∃ first rest, p.pairs = first :: rest := by
    obtain ⟨row, hrow, -⟩ := h.capture
    cases hl : p.pairs with
    | nil => rw [hl] at hrow; cases hrow
    | cons a l => exact ⟨a, l, rfl⟩
  obtain ⟨first, rest, hpairs⟩ := hpairs
  unfold fromENDF
  rw [hr]
  simp only [makeChannelRadiusTable, bind, Except.bind]
  rw [ht.1, ht.2, hp]
  simp only [if_true]
  rw [if_neg (by norm_num), if_neg (by norm_num), if_neg (by norm_num), hpairs]
  dsimp only
  rw [if_pos h.formalism]
  by_cases hf : first.shiftFactorFlag = 0
  · rw [if_pos hf, hs]
    refine ⟨_, rfl, fun E hE hpole => ?_⟩
    obtain ⟨v, hv⟩ := AdmissibleRMatrix.system_evaluates (option := .shiftFactor) h hs hE hpole
    unfold Reconstructor.call
    split
    · unfold SystemVariant.evaluate
      exact ⟨_, by simp only [bind, Except.bind]; erw [hv]; rfl⟩
    · exact ⟨_, rfl⟩
  · rw [if_neg hf, hs]
    refine ⟨_, rfl, fun E hE hpole => ?_⟩
    obtain ⟨v, hv⟩ := AdmissibleRMatrix.system_evaluates (option := .constant) h hs hE hpole
    unfold Reconstructor.call
    split
    · unfold SystemVariant.evaluate
      exact ⟨_, by simp only [bind, Except.bind]; erw [hv]; rfl⟩
    · exact ⟨_, rfl⟩

/-- C70: an R-matrix-limited range that makes sense physically is accepted, and it can be evaluated at every
energy that is no threshold and not that of a resonance without capture width. -/
theorem C70_accepted {pair : ParticlePair} (ht : range.type = 1 ∧ range.representation = 7)
    (hp : range.parameters = .rmatrixLimited p) (hr : range.scatteringRadius = none)
    (h : PhysicalRMatrix reactions neutronMass elementaryCharge incident target p pairs pair) :
    ∃ R, fromENDF K lib tables reactions initialBreitWigner initial neutronMass elementaryCharge incident
        target range = .ok R ∧
      ∀ E, (∀ row ∈ p.pairs, pair.massRatio * E + row.q ≠ 0) →
        (∀ record ∈ p.spinGroups, ∀ v ∈ record.resonances, v.1 = E →
          ∃ (i : ℕ) (row : ChannelRow) (width : ℝ), record.channels[i]? = some row ∧ Captures p row ∧
            v.2[i]? = some width ∧ width ≠ 0) →
        ∃ v, R.call K lib E = .ok v := by
  obtain ⟨R, h1, h2⟩ := C70_charged_accepted (K := K) (lib := lib) (tables := tables) (reactions := reactions)
    (initialBreitWigner := initialBreitWigner) (initial := initial) ht hp hr (PhysicalRMatrix.admissible h)
    fun hred record hrec v hv => PhysicalRMatrix.working h (h.thresholds hred record hrec v hv)
  exact ⟨R, h1, fun E hE => h2 E (PhysicalRMatrix.working h hE)⟩

end Verif.Endf
