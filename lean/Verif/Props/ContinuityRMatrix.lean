import Verif.Props.ContinuityRange
import Verif.Props.RMatrixRangeMore

/-!
# Property C72 for R-matrix-limited ranges
-/

namespace Verif.Endf

open Spec Filter Topology

variable {K : Constants} {lib : CoulombLibrary} {tables : InterpolationLibrary} {E₀ : ℝ}
  {initialBreitWigner : Channel → Verif.BreitWigner.Cache} {neutronMass : ℝ} {incident target : Str}
  {reactions : ReactionLibrary} {initial : (g : SpinGroup) → MatrixCache g.channels.length}
  {elementaryCharge : ℝ} {range : Range} {p : RMatrixLimited} {s : CompoundSystem}
  {pairs : List ParticlePair} {pair : ParticlePair} {R R' : Reconstructor} {m : ReactionMap}

namespace PhysicalRMatrix

open AdmissibleRMatrix (channel_of charge_of_type emits_of_type)

/-- The channels of an R-matrix-limited evaluation. -/
theorem system_channels
    (h : PhysicalRMatrix reactions neutronMass elementaryCharge incident target p pairs pair)
    (hs : makeRMatrixCompoundSystem K lib initial reactions neutronMass elementaryCharge incident target p
      = .ok s) :
    ∀ st ∈ s, st.group.Built ∧ ∀ c ∈ st.group.channels, ∃ record ∈ p.spinGroups,
      ∃ row ∈ record.channels, IsChannel pair pairs p.pairs record.spin record.parity row c := by
  obtain ⟨row, hrow, hmt, hp⟩ := toPairs h
  unfold makeRMatrixCompoundSystem at hs
  rw [pairs_made h.described] at hs
  simp only [Bind.bind, Except.bind] at hs
  split at hs
  · cases hs
  rename_i pair' hpair
  obtain rfl := hp.unique hpair
  obtain ⟨data, h2, hs⟩ := bind_ok.mp hs
  obtain ⟨consolidated, h3, hs⟩ := bind_ok.mp hs
  obtain ⟨rs, hrs, hdata⟩ := records_of hp h.ordered (mapM_ok.mp h2)
  have hflat : data.flatten = rs.flatMap RecordData.data := by rw [hdata, List.flatMap_def]
  rw [hflat] at h3
  have hkeys : rs.map RecordData.x = p.spinGroups.map recordKey := records_keys hrs
  have hnodup := recordKey_nodup h.groups
  have hrecord : ∀ r ∈ rs, ∃ record ∈ p.spinGroups, RecordOf K lib p pairs pair' row.q record r :=
    fun r hr => forall₂_mem_right hrs hr
  obtain ⟨jpis, j1, j2, j3, j4⟩ := RecordData.system_records
    (fun r hr => (hrecord r hr).elim fun _ h => h.2.good) (by rw [hkeys]; exact hnodup) h3 hs
  intro st hst
  obtain ⟨x, hx, hb, hr⟩ := forall₂_mem_right j4 hst
  obtain ⟨r, hrm, rfl⟩ := j2 x hx
  obtain ⟨hch, ht⟩ := hr r hrm rfl
  obtain ⟨record, hrec, hro⟩ := hrecord r hrm
  refine ⟨hb, fun c hc => ?_⟩
  rw [hch] at hc
  obtain ⟨i, -, rfl⟩ := List.mem_map.mp hc
  obtain ⟨row, c1, c2⟩ := channel_of hro i
  exact ⟨record, hrec, row, List.mem_of_getElem? c1, c2⟩

/-- They are regular at an energy unless one opens there. -/
theorem channel_regular {option : BoundaryOption}
    (h : PhysicalRMatrix reactions neutronMass elementaryCharge incident target p pairs pair)
    {record : SpinGroupRecord} (hr : record ∈ p.spinGroups) {row : ChannelRow}
    (hrow : row ∈ record.channels) {c : Channel}
    (hc : IsChannel pair pairs p.pairs record.spin record.parity row c)
    (hthr : ∀ pairRow, p.pairs[row.pairNumber - 1]? = some pairRow →
      pair.massRatio * E₀ + pairRow.q = 0 →
        Emits pairRow.mt ∧ (option = .constant → row.boundary = -(row.l : ℝ))) :
    Regular option c E₀ := by
  obtain ⟨pairRow, h1, h2, h3⟩ := hc.reaction
  have hmem := List.mem_of_getElem? h1
  have hpair := forall₂_index h.described h1 hc.pair
  have constant : ∀ {f : ℝ → Outcome ℝ} {a : ℝ}, (∀ E, f E = .ok a) → ContinuousRadius f E₀ :=
    fun hf => ⟨fun _ => _, continuousAt_const, Eventually.of_forall hf⟩
  have hcharge : c.type ≠ .charged := by
    intro hch
    rw [hch] at h3
    have h4 := charge_of_type h3
    rw [hpair.charges.1, h.neutral _ hmem, zero_mul] at h4
    exact lt_irrefl _ h4
  refine ⟨hcharge, constant fun E => (hc.radii E).1, fun hn => Eventually.of_forall fun E a ha => ?_,
    constant fun E => (hc.radii E).2.1, constant fun E => (hc.radii E).2.2, fun ht => ?_⟩
  · rw [hn] at h3
    rw [(hc.radii E).1] at ha
    exact (Except.ok.inj ha) ▸ (h.particles record hr row hrow pairRow h1 (emits_of_type h3)).2.le
  · unfold AtThreshold at ht
    rw [hc.incident, h2] at ht
    obtain ⟨k1, k2⟩ := hthr pairRow h1 ht
    refine ⟨?_, fun ho => by rw [hc.boundary, hc.l]; exact k2 ho⟩
    unfold Emits at k1
    generalize c.type = t at h3 hcharge ⊢
    generalize pairRow.mt = mt at h3 k1
    cases h3 with
    | neutral => rfl
    | charged => exact absurd rfl hcharge
    | capture => exact absurd k1 (by simp)
    | fission hf => exact absurd (List.mem_cons_of_mem _ hf) k1

end PhysicalRMatrix

/-- C72 for R-matrix-limited ranges: the cross sections of a range that makes sense physically are continuous
at every energy inside it where there are any, provided that the channels which open at this energy are
neutron channels whose boundary conditions, if they are used, are those of the threshold. -/
theorem C72_rmatrix
    (hR : fromENDF K lib tables reactions initialBreitWigner initial neutronMass elementaryCharge incident
      target range = .ok R)
    (hp : range.parameters = .rmatrixLimited p)
    (h : PhysicalRMatrix reactions neutronMass elementaryCharge incident target p pairs pair)
    (hE : range.lower < E₀ ∧ E₀ < range.upper)
    (hthr : ∀ record ∈ p.spinGroups, ∀ row ∈ record.channels, ∀ pairRow,
      p.pairs[row.pairNumber - 1]? = some pairRow → pair.massRatio * E₀ + pairRow.q = 0 →
        Emits pairRow.mt ∧ row.boundary = -(row.l : ℝ))
    (hm : R.call K lib E₀ = .ok (m, R')) {ε : ℝ} (hε : 0 < ε) :
    ∃ δ > 0, ∀ E, |E - E₀| < δ → ∃ m' R', R.call K lib E = .ok (m', R') ∧
      ∀ id, Close ε (m' id) (m id) := by
  obtain ⟨k1, k2, -, nro, -, k4⟩ := C47_dispatch hR
  rw [hp] at k4
  cases hs : R.system with
  | shiftFactor s =>
    rw [hs] at k4
    have hch := PhysicalRMatrix.system_channels h k4
    refine C72_reconstructor (option := .shiftFactor) (s := s) hs (fun st hst => (hch st hst).1) ?_
      (by rw [k1, k2]; exact hE) hm hε
    intro st hst c hc
    obtain ⟨record, hrec, row, hrow, hc'⟩ := (hch st hst).2 c hc
    exact PhysicalRMatrix.channel_regular h hrec hrow hc' fun pairRow q1 q2 =>
      ⟨(hthr record hrec row hrow pairRow q1 q2).1, fun ho => by cases ho⟩
  | constant s =>
    rw [hs] at k4
    have hch := PhysicalRMatrix.system_channels h k4
    refine C72_reconstructor (option := .constant) (s := s) hs (fun st hst => (hch st hst).1) ?_
      (by rw [k1, k2]; exact hE) hm hε
    intro st hst c hc
    obtain ⟨record, hrec, row, hrow, hc'⟩ := (hch st hst).2 c hc
    exact PhysicalRMatrix.channel_regular h hrec hrow hc' fun pairRow q1 q2 =>
      ⟨(hthr record hrec row hrow pairRow q1 q2).1, fun _ => (hthr record hrec row hrow pairRow q1 q2).2⟩
  | singleLevel s => rw [hs] at k4; exact k4.elim
  | multiLevel s => rw [hs] at k4; exact k4.elim
  | unresolved s => rw [hs] at k4; exact k4.elim

open Example in
/-- C72 applies to the example of C70 at energy 10. -/
example (K : Constants) (lib : CoulombLibrary) (tables : InterpolationLibrary)
    (initialBreitWigner : Channel → Verif.BreitWigner.Cache)
    (initial : (g : SpinGroup) → MatrixCache g.channels.length) (a b : ℤ) :
    ∃ R m R', fromENDF K lib tables reactionLibrary initialBreitWigner initial 1 1 "n".toList
        "Cl35".toList (waveRange a b) = .ok R ∧ R.call K lib 10 = .ok (m, R') ∧
      ∀ ε > 0, ∃ δ > 0, ∀ E, |E - 10| < δ → ∃ m' R', R.call K lib E = .ok (m', R') ∧
        ∀ id, Close ε (m' id) (m id) := by
  obtain ⟨R, m, R', h1, h2⟩ := wave_evaluates K lib tables initialBreitWigner initial a b
  refine ⟨R, m, R', h1, h2, fun ε hε => C72_rmatrix h1 rfl (wave_physical a b) (by norm_num [waveRange]) ?_ h2 hε⟩
  intro record _ row _ pairRow hp ht
  have := List.mem_of_getElem? hp
  simp only [waveEvaluation, flagRows, List.mem_cons, List.not_mem_nil, or_false] at this
  rcases this with rfl | rfl <;> norm_num [neutronPair] at ht

end Verif.Endf
