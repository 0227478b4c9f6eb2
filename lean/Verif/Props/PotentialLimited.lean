import Verif.Props.UnitarityLimited
import Verif.Props.PotentialScattering

/-!
# Property C104 for R-matrix-limited ranges
-/

namespace Verif.Spec

open Endf Complex

/-- The row of a channel refers to the elastic pair. -/
def ElasticRow (p : RMatrixLimited) (row : ChannelRow) : Prop :=
  ∃ pairRow, p.pairs[row.pairNumber - 1]? = some pairRow ∧ pairRow.mt = 2

/-- No resonance of a spin group has a width in an elastic channel. -/
def NoElasticWidths (p : RMatrixLimited) (record : SpinGroupRecord) : Prop :=
  ∀ (i : ℕ) row, record.channels[i]? = some row → ElasticRow p row →
    ∀ v ∈ record.resonances, ∀ width, v.2[i]? = some width → width = 0

open Classical in
/-- The scattering by a hard sphere in the elastic channels of a spin group, with their effective radii. -/
noncomputable def elasticHardSphere (p : RMatrixLimited) (k : ℝ) (record : SpinGroupRecord) : ℝ :=
  (record.channels.map fun row => if ElasticRow p row then
    normSq (1 - hardSpherePhase (k * row.effectiveRadius) row.l) else 0).sum

end Verif.Spec

namespace Verif.Endf

open Spec Complex

namespace PotentialLimited

theorem T_zero {g : RGroup} {E : ℝ} (hdet : (1 - g.R E * Matrix.diagonal g.L).det ≠ 0) {c : Fin g.n}
    (hc : ∀ v ∈ g.levels, v.width c = 0) (c' : Fin g.n) : g.T E c c' = 0 := by
  have hrow : ∀ j, g.R E c j = 0 := by
    intro j
    simp only [RGroup.R, Matrix.of_apply]
    apply List.sum_eq_zero
    intro x hx
    obtain ⟨v, hv, rfl⟩ := List.mem_map.mp hx
    have : g.amplitude E v c = 0 := by
      unfold RGroup.amplitude
      split
      · rfl
      · exact hc v hv
    simp [this]
  set M := 1 - g.R E * Matrix.diagonal g.L with hM
  set X := M⁻¹ * g.R E with hX
  have h1 : M * X = g.R E := by
    rw [hX, ← Matrix.mul_assoc, Matrix.mul_nonsing_inv _ (isUnit_iff_ne_zero.mpr hdet), Matrix.one_mul]
  have h2 := congrFun (congrFun h1 c) c'
  rw [hM, Matrix.sub_mul, Matrix.one_mul, Matrix.sub_apply, hrow, Matrix.mul_assoc, Matrix.mul_apply] at h2
  simp only [hrow, zero_mul, Finset.sum_const_zero, sub_zero] at h2
  simp only [RGroup.T, Matrix.of_apply]
  rw [← hM, ← hX, h2, mul_zero, zero_mul]

theorem normSq_one_sub_exp (x : ℝ) : normSq (1 - exp (-(2 * I * x))) = normSq (1 - exp (2 * I * x)) := by
  have : exp (-(2 * I * x)) = (starRingEnd ℂ) (exp (2 * I * x)) := by
    rw [← Complex.exp_conj]
    congr 1
    simp [Complex.conj_ofNat]
  rw [this, show (1 : ℂ) - (starRingEnd ℂ) (exp (2 * I * x)) = (starRingEnd ℂ) (1 - exp (2 * I * x)) by simp,
    normSq_conj]

end PotentialLimited

open PotentialLimited

variable {K : Constants} {lib : CoulombLibrary} {tables : InterpolationLibrary}
  {reactions : ReactionLibrary} {initialBreitWigner : Channel → Verif.BreitWigner.Cache}
  {initial : (g : SpinGroup) → MatrixCache g.channels.length} {neutronMass elementaryCharge E : ℝ}
  {incident target : Str} {range : Range} {p : RMatrixLimited} {R R' : Reconstructor}
  {m : ReactionMap} {pairs : List ParticlePair}

/-- What the elastic channels of a group are. -/
theorem group_channels {i : ℕ} {row : ParticlePairRow} {pair : ParticlePair}
    (hpairs : List.Forall₂ (IsPair reactions neutronMass elementaryCharge incident target) p.pairs pairs)
    (hids : (pairs.map ParticlePair.id).Nodup)
    (hneutral : ∀ row ∈ p.pairs, row.mt = 2 → row.chargeA = 0)
    (hi : p.pairs[i]? = some row) (hmt : row.mt = 2) (hpi : pairs[i]? = some pair)
    {record : SpinGroupRecord} {g : RGroup} (hg : IsRGroup K lib pair pairs p E record g) (c : Fin g.n) :
    ∃ r, record.channels[c.1]? = some r ∧
      IsChannel pair pairs p.pairs record.spin record.parity r (g.channel c) ∧
      (g.isIncident c ↔ (g.channel c).pair.id = pair.id) ∧
      (ElasticRow p r ↔ (g.channel c).pair.id = pair.id) ∧
      (ElasticRow p r → (g.channel c).pair = pair ∧ (g.channel c).q = row.q ∧ (g.channel c).type = .neutron ∧
        ¬ g.eliminated c) := by
  have hlen : record.channels.length = g.n := by
    simpa using hg.channels.length_eq
  have hc : c.1 < record.channels.length := by rw [hlen]; exact c.2
  have hr := List.getElem?_eq_getElem hc
  have h := forall₂_index (b := g.channel c) hg.channels hr (by simp)
  generalize record.channels[c.1] = r at hr h
  refine ⟨r, hr, h, by unfold RGroup.isIncident; rw [h.incident], ?_⟩
  have hidx : (g.channel c).pair.id = pair.id → r.pairNumber - 1 = i := by
    intro h'
    obtain ⟨h1, h1'⟩ := List.getElem?_eq_some_iff.mp h.pair
    obtain ⟨h2, h2'⟩ := List.getElem?_eq_some_iff.mp hpi
    refine (List.Nodup.getElem_inj_iff hids (hi := by simpa using h1) (hj := by simpa using h2)).mp ?_
    simp [h1', h2', h']
  have hsc : ElasticRow p r → (g.channel c).pair.id = pair.id := by
    rintro ⟨pr, h1, h2⟩
    have a := (forall₂_index hpairs h1 h.pair).name
    have b := (forall₂_index hpairs hi hpi).name
    unfold IsName at a b
    rw [if_pos h2] at a
    rw [if_pos hmt] at b
    rw [a.2.2, b.2.2]
  refine ⟨⟨hsc, fun h' => ⟨row, by rw [hidx h', hi], hmt⟩⟩, fun h' => ?_⟩
  have hj := hidx (hsc h')
  have hp := h.pair
  rw [hj, hpi] at hp
  obtain ⟨pr, h1, h2, h3⟩ := h.reaction
  rw [hj, hi] at h1
  cases h1
  refine ⟨(Option.some.inj hp).symm, h2, ?_, ?_⟩
  · rw [hmt] at h3
    have h0 : (g.channel c).pair.particle.charge = 0 := by
      rw [← Option.some.inj hp, (forall₂_index hpairs hi hpi).charges.1,
        hneutral row (List.mem_of_getElem? hi) hmt, zero_mul]
    generalize (g.channel c).type = t at h3
    cases h3 with
    | fission h => simp at h
    | charged _ h => rw [h0] at h; exact absurd h (lt_irrefl _)
    | neutral => rfl
  · intro he
    have := ((hg.flags c r row hr (by rw [hj, hi])).1.mp he)
    rw [hmt] at this
    norm_num at this

/-- What the channels of a group are, if no resonance has a width in the elastic ones. -/
theorem group_potential {i : ℕ} {row : ParticlePairRow} {pair : ParticlePair}
    (hpairs : List.Forall₂ (IsPair reactions neutronMass elementaryCharge incident target) p.pairs pairs)
    (hids : (pairs.map ParticlePair.id).Nodup)
    (hneutral : ∀ row ∈ p.pairs, row.mt = 2 → row.chargeA = 0)
    (hi : p.pairs[i]? = some row) (hmt : row.mt = 2) (hpi : pairs[i]? = some pair)
    {record : SpinGroupRecord} {g : RGroup} (hg : IsRGroup K lib pair pairs p E record g)
    (hz : NoElasticWidths p record) :
    g.into K E pair.id = elasticHardSphere p
        (Real.sqrt (2 * pair.reducedMass * |pair.massRatio * E + row.q|) / K.hbar) record ∧
      g.capture K E = 0 ∧ ∀ out, out ≠ pair.id → g.into K E out = 0 := by
  classical
  have hlen : record.channels.length = g.n := by
    simpa using hg.channels.length_eq
  have hall := group_channels hpairs hids hneutral hi hmt hpi hg
  have hch : ∀ (c : Fin g.n), ∃ r, record.channels[c.1]? = some r ∧
      IsChannel pair pairs p.pairs record.spin record.parity r (g.channel c) := fun c => by
    obtain ⟨r, h1, h2, -⟩ := hall c
    exact ⟨r, h1, h2⟩
  have hinc : ∀ (c : Fin g.n) r, record.channels[c.1]? = some r →
      IsChannel pair pairs p.pairs record.spin record.parity r (g.channel c) →
      (ElasticRow p r ↔ (g.channel c).pair.id = pair.id) ∧
      (ElasticRow p r → (g.channel c).pair = pair ∧ (g.channel c).q = row.q ∧ (g.channel c).type = .neutron ∧
        ¬ g.eliminated c) := fun c r hr _ => by
    obtain ⟨r', h1, -, -, h2⟩ := hall c
    rw [hr] at h1
    cases h1
    exact h2
  have hisI : ∀ c, g.isIncident c ↔ (g.channel c).pair.id = pair.id := fun c => by
    obtain ⟨r, -, -, h, -⟩ := hall c
    exact h
  have hwidth : ∀ c, g.isIncident c → ∀ v ∈ g.levels, v.width c = 0 := by
    intro c hc v hv
    obtain ⟨r, hr, h⟩ := hch c
    have hs := (hinc c r hr h).1.mpr ((hisI c).mp hc)
    obtain ⟨j, hj, rfl⟩ := List.getElem_of_mem hv
    have hl := hg.levels.length_eq
    have hj' : j < record.resonances.length := hl ▸ hj
    obtain ⟨-, h2⟩ := forall₂_index hg.levels (List.getElem?_eq_getElem hj') (List.getElem?_eq_getElem hj)
    obtain ⟨width, h3, h4⟩ := h2 c
    have h0 := hz c r hr hs _ (List.getElem_mem hj') width h3
    subst h0
    unfold IsRWidth at h4
    rw [if_pos rfl] at h4
    split at h4 <;> exact h4
  have hU : ∀ c c', g.isIncident c → g.U K E c c' = if c = c' then exp (-(2 * I * g.φ c)) else 0 := by
    intro c c' hc
    obtain ⟨r, hr, h⟩ := hch c
    obtain ⟨-, -, ht, -⟩ := (hinc c r hr h).2 ((hinc c r hr h).1.mpr ((hisI c).mp hc))
    unfold RGroup.U Spec.collision
    rw [T_zero hg.finite.2 (hwidth c hc)]
    by_cases hcc : c = c'
    · subst hcc
      simp only [if_pos, coulombAt, ht, reduceCtorEq, if_false, mul_zero, add_zero, mul_one]
      rw [← Complex.exp_add]
      congr 1
      push_cast
      ring
    · simp [hcc]
  have hw : ∀ c, g.isIncident c → coulombAt K (g.channel c) E = 0 := by
    intro c hc
    obtain ⟨r, hr, h⟩ := hch c
    obtain ⟨-, -, ht, -⟩ := (hinc c r hr h).2 ((hinc c r hr h).1.mpr ((hisI c).mp hc))
    simp [coulombAt, ht]
  have hn : ∀ x : ℝ, normSq (exp (-(2 * I * x))) = 1 := by
    intro x
    have := normSq_exp_I_mul (-(2 * x))
    rw [← this]
    congr 2
    push_cast
    ring
  refine ⟨?_, ?_, ?_⟩
  · have h1 : g.into K E pair.id = ∑ c : Fin g.n, if g.isIncident c then
        normSq (1 - exp (2 * I * g.φ c)) else 0 := by
      unfold RGroup.into
      refine Finset.sum_congr rfl fun c _ => ?_
      split
      · rename_i hc
        rw [Finset.sum_eq_single c, if_pos ((hisI c).mp hc), if_pos rfl, hU c c hc, if_pos rfl, hw c hc,
          ← PotentialLimited.normSq_one_sub_exp]
        · simp
        · intro c' _ hne
          rw [hU c c' hc, if_neg (Ne.symm hne), if_neg (Ne.symm hne)]
          simp
        · exact fun h => absurd (Finset.mem_univ c) h
      · rfl
    rw [h1, ← List.sum_ofFn]
    unfold elasticHardSphere
    congr 1
    refine List.ext_getElem (by simp [hlen]) fun j hj hj' => ?_
    simp only [List.getElem_ofFn, List.getElem_map]
    have hjn : j < g.n := by simpa using hj
    obtain ⟨r, hr, h⟩ := hch ⟨j, hjn⟩
    obtain ⟨_, hr'⟩ := List.getElem?_eq_some_iff.mp hr
    simp only at hr'
    rw [hr']
    by_cases hs : ElasticRow p r
    · have hci := (hisI _).mpr ((hinc _ r hr h).1.mp hs)
      obtain ⟨h2, h3, h4, h5⟩ := (hinc _ r hr h).2 hs
      rw [if_pos hci, if_pos hs]
      have hph := hg.phase ⟨j, hjn⟩ ⟨h5, .inl hci⟩
      unfold PhaseAt at hph
      rw [h4] at hph
      obtain ⟨a, ha, hph⟩ := hph
      rw [(h.radii E).2.2] at ha
      cases ha
      rw [hph, h.l]
      unfold channelWave
      rw [h2, h3, h.incident]
    · rw [if_neg fun hc => hs ((hinc _ r hr h).1.mpr ((hisI _).mp hc)), if_neg hs]
  · unfold RGroup.capture
    refine Finset.sum_eq_zero fun c _ => ?_
    split
    · rename_i hc
      rw [Finset.sum_eq_single c, hU c c hc, if_pos rfl, hn, sub_self]
      · intro c' _ hne
        rw [hU c c' hc, if_neg (Ne.symm hne), normSq_zero]
      · exact fun h => absurd (Finset.mem_univ c) h
    · rfl
  · intro out hout
    unfold RGroup.into
    refine Finset.sum_eq_zero fun c _ => ?_
    split
    · rename_i hc
      refine Finset.sum_eq_zero fun c' _ => ?_
      split
      · rename_i hc'
        have hne : c ≠ c' := by
          rintro rfl
          exact hout (hc'.symm.trans ((hisI c).mp hc))
        rw [hU c c' hc, if_neg hne, if_neg hne]
        simp
      · rfl
    · rfl

/-- C104, R-matrix-limited ranges, in the cases of C70: if no resonance has a width in an elastic channel, the
elastic cross section is the scattering by a hard sphere in the elastic channels of the spin groups, and there
is no other cross section. -/
theorem C104_rmatrix_limited
    (hR : fromENDF K lib tables reactions initialBreitWigner initial neutronMass elementaryCharge incident
      target range = .ok R)
    (hp : range.parameters = .rmatrixLimited p)
    (hpairs : List.Forall₂ (IsPair reactions neutronMass elementaryCharge incident target) p.pairs pairs)
    (hids : (pairs.map ParticlePair.id).Nodup)
    (hflags : ∀ a ∈ p.pairs, ∀ b ∈ p.pairs, a.shiftFactorFlag = 0 → b.shiftFactorFlag = 0)
    (hneutral : ∀ row ∈ p.pairs, row.mt = 2 → row.chargeA = 0)
    (ho : ∀ record ∈ p.spinGroups, Ordered pairs p record)
    (hd : p.spinGroups.Pairwise fun a b => ¬ SameSpinParity a b)
    (hz : ∀ record ∈ p.spinGroups, NoElasticWidths p record)
    (hE : range.lower ≤ E ∧ E ≤ range.upper)
    (hm : R.call K lib E = .ok (m, R')) :
    ∃ (i : ℕ) (row : ParticlePairRow) (pair : ParticlePair),
      p.pairs[i]? = some row ∧ row.mt = 2 ∧ pairs[i]? = some pair ∧
      let k2 := 2 * pair.reducedMass * |pair.massRatio * E + row.q| / K.hbar ^ 2
      let k := Real.sqrt (2 * pair.reducedMass * |pair.massRatio * E + row.q|) / K.hbar
      m (.inl (.elastic pair.id)) = some (Real.pi / k2 * (p.spinGroups.map fun record =>
        groupFactor pair record * elasticHardSphere p k record).sum) ∧
      ∀ id, id ≠ .inl (.elastic pair.id) → (m id).getD 0 = 0 := by
  obtain ⟨i, row, pair, gs, h1, h2, h3, h4, h5⟩ := C70_partial hR hp hpairs hids hflags hneutral ho hd hE hm
  refine ⟨i, row, pair, h1, h2, h3, ?_⟩
  have hall : List.Forall₂ (fun record (g : RGroup) => g.into K E pair.id = elasticHardSphere p
        (Real.sqrt (2 * pair.reducedMass * |pair.massRatio * E + row.q|) / K.hbar) record ∧
      g.capture K E = 0 ∧ ∀ out, out ≠ pair.id → g.into K E out = 0) p.spinGroups gs := by
    have := h4.groups
    clear h4
    rw [List.forall₂_iff_get] at this ⊢
    refine ⟨this.1, fun j hj hj' => ?_⟩
    exact group_potential hpairs hids hneutral h1 h2 h3 (this.2 j hj hj') (hz _ (List.get_mem _ _))
  have hzero : ∀ f : RGroup → ℝ, ∀ a : SpinGroupRecord → ℝ, List.Forall₂ (fun _ g => f g = 0) p.spinGroups gs →
      (List.zipWith (fun record g => a record * f g) p.spinGroups gs).sum = 0 := by
    intro f a hf
    clear hz hd ho hall h4
    generalize p.spinGroups = l at hf
    induction hf with
    | nil => rfl
    | cons h _ ih => rw [List.zipWith_cons_cons, List.sum_cons, ih, h, mul_zero, add_zero]
  refine ⟨?_, ?_⟩
  · refine h4.elastic.trans (congrArg some ?_)
    clear h4 hz hd ho hzero
    generalize p.spinGroups = l at hall
    induction hall with
    | nil => simp
    | cons h _ ih =>
      rw [List.zipWith_cons_cons, List.sum_cons, List.map_cons, List.sum_cons, ih, h.1]
      ring
  · rintro (id | id) hid
    · by_cases hs : (m (.inl id)).isSome
      · obtain rfl | ⟨out, ho1, rfl⟩ := h4.other id hs
        · exact absurd rfl hid
        · by_cases hc : out = "capture".toList
          · subst hc
            rw [h4.capture, Option.getD_some]
            exact hzero _ _ (hall.imp fun _ _ h => h.2.1)
          · rw [h4.reaction out ho1 hc]
            exact hzero (fun g => g.into K E out) _ (hall.imp fun _ _ h => h.2.2 out ho1)
      · simp only [Option.not_isSome_iff_eq_none] at hs
        rw [hs, Option.getD_none]
    · rw [h5 id, Option.getD_none]

namespace Example

/-- The spin group of the example of C70, with a resonance that has no neutron width. -/
noncomputable def quietRecord : SpinGroupRecord := { waveRecord with resonances := [(10, [1, 0])] }

/-- The range with this spin group. -/
noncomputable def quietEvaluation (a b : ℤ) : RMatrixLimited := { waveEvaluation a b with spinGroups := [quietRecord] }

/-- Its range. -/
noncomputable def quietRange (a b : ℤ) : Range := { waveRange a b with
  parameters := .rmatrixLimited (quietEvaluation a b) }

theorem quiet_physical (a b : ℤ) : PhysicalRMatrix reactionLibrary 1 1 "n".toList "Cl35".toList
    (quietEvaluation a b) [photonPair, neutronPair] neutronPair := by
  have h := wave_physical a b
  have ho := waveRecord_ordered a b
  have hw : waveRecord ∈ (waveEvaluation a b).spinGroups := List.mem_singleton.mpr rfl
  refine ⟨rfl, h.described, h.distinct, h.neutral, h.masses, h.elastic, h.capture, by simp [quietEvaluation],
    ?_, List.pairwise_singleton _ _, ?_, ?_, ?_, ?_, ?_, ?_⟩
  · intro record hr
    obtain rfl := List.mem_singleton.mp hr
    exact ⟨ho.count, ho.number, ho.type, ho.capture, by simp [quietRecord], by simp [quietRecord, waveRecord]⟩
  · intro record hr
    obtain rfl := List.mem_singleton.mp hr
    exact h.spins waveRecord hw
  · intro record hr
    obtain rfl := List.mem_singleton.mp hr
    exact h.entrance waveRecord hw
  · intro record hr
    obtain rfl := List.mem_singleton.mp hr
    exact h.channels waveRecord hw
  · intro record hr v hv
    obtain rfl := List.mem_singleton.mp hr
    obtain rfl := List.mem_singleton.mp hv
    simp [quietRecord, waveRecord]
  · intro record hr
    obtain rfl := List.mem_singleton.mp hr
    exact h.particles waveRecord hw
  · intro h
    simp [quietEvaluation, waveEvaluation] at h

/-- C104 applies to it: the capture is zero, although the resonance has a capture width. -/
example (K : Constants) (lib : CoulombLibrary) (tables : InterpolationLibrary)
    (initialBreitWigner : Channel → Verif.BreitWigner.Cache)
    (initial : (g : SpinGroup) → MatrixCache g.channels.length) (a : ℤ) :
    ∃ R m R', fromENDF K lib tables reactionLibrary initialBreitWigner initial 1 1 "n".toList "Cl35".toList
      (quietRange a a) = .ok R ∧ R.call K lib 10 = .ok (m, R') ∧
      (m (.inl (.transition neutronPair.id "capture".toList))).getD 0 = 0 := by
  have hp := quiet_physical a a
  obtain ⟨R, hR, hcall⟩ := C70_accepted (K := K) (lib := lib) (tables := tables)
    (initialBreitWigner := initialBreitWigner) (initial := initial) (range := quietRange a a) ⟨rfl, rfl⟩ rfl rfl
    hp
  obtain ⟨⟨m, R'⟩, hv⟩ := hcall 10 (by
    intro row hrow
    simp only [quietEvaluation, waveEvaluation, flagRows, List.mem_cons, List.not_mem_nil, or_false] at hrow
    rcases hrow with rfl | rfl <;> norm_num [neutronPair]) (by
    intro record hr v hv _
    obtain rfl := List.mem_singleton.mp hr
    obtain rfl := List.mem_singleton.mp hv
    exact ⟨0, _, 1, rfl, ⟨_, rfl, rfl⟩, rfl, one_ne_zero⟩)
  obtain ⟨i, row, pair, -, -, -, -, h⟩ := C104_rmatrix_limited hR rfl hp.described hp.distinct (by
    intro x hx y hy hxa
    simp only [quietEvaluation, waveEvaluation, flagRows, List.mem_cons, List.not_mem_nil, or_false] at hx hy
    rcases hx with rfl | rfl <;> rcases hy with rfl | rfl <;> exact hxa) (fun row hrow _ => hp.neutral row hrow)
    hp.ordered hp.groups (by
      intro record hr i row hi hs v hv width hw
      obtain rfl := List.mem_singleton.mp hr
      obtain rfl := List.mem_singleton.mp hv
      match i with
      | 0 =>
        obtain rfl := Option.some.inj hi
        obtain ⟨pr, h1, h2⟩ := hs
        obtain rfl := Option.some.inj h1
        norm_num at h2
      | 1 => exact (Option.some.inj hw).symm
      | i + 2 => cases hw) (by norm_num [quietRange, waveRange]) hv
  exact ⟨R, m, R', hR, hv, h _ (by simp)⟩

end Example

end Verif.Endf
