import Verif.Lemmas.FormatsPairs
import Verif.Props.ReichMooreRangeAccepted

/-!
# C91: an evaluation in the Reich-Moore and in the R-matrix-limited format
-/

namespace Verif.Formats

open Spec Complex Endf

variable {K : Constants} {lib : CoulombLibrary} {tables : InterpolationLibrary}
  {reactions : ReactionLibrary} {initialBreitWigner : Channel → Verif.BreitWigner.Cache}
  {initial : (g : SpinGroup) → MatrixCache g.channels.length} {neutronMass elementaryCharge A E : ℝ}
  {incident target : Str} {range range' : Range} {p : ReichMoore} {x : Supplement}
  {R R' S S' : Reconstructor} {m m' : ReactionMap}

/-- C91: a range in the Reich-Moore format and the same evaluation in the R-matrix-limited format give the
same cross sections. Reactions that are not reported count as zero: the R-matrix-limited format may report
capture also under the name of its particle pair, with a cross section of zero. -/
theorem C91_cross_sections
    (hs : SimpleReichMoore A p) (hm : 0 < neutronMass) (he : 0 ≤ elementaryCharge) (hx : 0 ≤ x.charge)
    (hq : 0 ≤ x.qFission) (hc : CaptureNamed reactions incident target)
    (hR : fromENDF K lib tables reactions initialBreitWigner initial neutronMass elementaryCharge incident
      target range = .ok R)
    (hp : range.parameters = .reichMoore p) (hr : range.scatteringRadius = none)
    (hn : range.naps = 0 ∨ range.naps = 1)
    (hS : fromENDF K lib tables reactions initialBreitWigner initial neutronMass elementaryCharge incident
      target range' = .ok S)
    (hp' : range'.parameters = .rmatrixLimited (asRMatrixLimited neutronMass A range.naps x p))
    (h0 : 0 ≤ E) (hE : range.lower ≤ E ∧ E ≤ range.upper) (hE' : range'.lower ≤ E ∧ E ≤ range'.upper)
    (hv : R.call K lib E = .ok (m, R')) (hv' : S.call K lib E = .ok (m', S')) (id : ReactionID ⊕ LegacyID) :
    (m id).getD 0 = (m' id).getD 0 := by
  obtain ⟨nro, ws, k1, hRM, k3⟩ := C69_cross_sections hR hp
    (by rw [hr]; rcases hn with e | e <;> rw [e] <;> simp [prescribedRadii])
    ⟨0, by rw [hs.spin]; norm_num⟩ hs.ratio hs.widths hs.energies h0 hE hv
  rw [hr] at k1
  cases k1
  obtain ⟨pc, pe, pf, hpairs, hids, hide, hidf⟩ := pairs_exist (x := x) hm he hs.positive hx hc
  obtain ⟨i, row, pair, gs, j1, j2, j3, hRL, j4⟩ := C70_partial hS hp' hpairs (by simpa using hids)
    (by intro a _ b hb _; simp [asRMatrixLimited, rmlPairs] at hb; rcases hb with rfl | rfl | rfl <;> rfl)
    (by intro a ha _; simp [asRMatrixLimited, rmlPairs] at ha; rcases ha with rfl | rfl | rfl <;> rfl)
    (by
      intro record hrec
      obtain ⟨k, hk, rfl⟩ := List.mem_map.mp hrec
      exact ordered _ hs.energies hk)
    (groups_differ _) hE' hv'
  have hpair : pair = pe ∧ row.q = 0 := by
    match i, j1 with
    | 0, j1 => obtain rfl := Option.some.inj j1; norm_num at j2
    | 1, j1 => obtain rfl := Option.some.inj j1; exact ⟨(Option.some.inj j3).symm, rfl⟩
    | 2, j1 => obtain rfl := Option.some.inj j1; norm_num at j2
    | n + 3, j1 => simp [asRMatrixLimited, rmlPairs] at j1
  obtain ⟨rfl, hq0⟩ := hpair
  have hpe : IsPair reactions neutronMass elementaryCharge incident target
      ⟨1, A, 0, x.charge, 1 / 2, 0, 0, 1, 0, 0, 2⟩ pair := by
    cases hpairs with
    | cons _ h => cases h with
      | cons h _ => exact h
  rw [hq0] at hRL
  have hpos : 0 < E := by
    refine lt_of_le_of_ne h0 fun e => hRM.finite ?_
    rw [← e]
    simp [neutronWaveNumber]
  obtain ⟨W, hW, rE, rC, rF⟩ := waves hs hRM
  -- the factors
  have hfactor : Real.pi / (2 * pair.reducedMass * |pair.massRatio * E + 0| / K.hbar ^ 2)
      = Real.pi / neutronWaveNumber (waveConstant K.hbar neutronMass) A E ^ 2 := by
    have hA := hs.positive
    congr 1
    unfold neutronWaveNumber waveConstant
    rw [hpe.reduced, hpe.ratio, hpe.masses.1, hpe.masses.2, add_zero, one_mul, mul_pow, mul_pow, div_pow,
      Real.sq_sqrt (by positivity), Real.sq_sqrt (abs_nonneg _), abs_mul,
      abs_of_pos (show 0 < A * neutronMass / (neutronMass + A * neutronMass) by positivity)]
    have : (neutronMass + A * neutronMass) = neutronMass * (A + 1) := by ring
    rw [this]
    field_simp
  generalize hk : Real.pi / neutronWaveNumber (waveConstant K.hbar neutronMass) A E ^ 2 = c at *
  have hg : ∀ k ∈ partialWaves p.nlsc, (groupFactor pair (rmlGroup (A * neutronMass) range.naps p k) : ℝ)
      = (neutronFactor 0 |k.2| : ℝ) := by
    intro k hk
    have s1 : pair.particle.spin = 1 / 2 := by
      rw [hpe.first.1]
      norm_num
    have s2 : pair.residual.spin = 0 := by
      rw [hpe.second.1]
      norm_num
    have hJ := spinsOf_pos (mem_partialWaves (l := k.1) (J := k.2) hk).2
    have s3 : |(-1 : ℚ) ^ k.1 * k.2| = |k.2| := by
      rw [abs_mul, abs_neg_one_pow, one_mul]
    unfold groupFactor neutronFactor
    rw [s1, s2]
    show (((2 * |(-1 : ℚ) ^ k.1 * k.2| + 1) / ((2 * (1 / 2) + 1) * (2 * 0 + 1)) : ℚ) : ℝ) = _
    rw [s3]
    norm_num
  have hgroups := hRL.groups
  have hval : ∀ k ∈ partialWaves p.nlsc, ∀ g, IsRGroup K lib pair [pc, pair, pf]
      (asRMatrixLimited neutronMass A range.naps x p) E (rmlGroup (A * neutronMass) range.naps p k) g →
      g.into K E pair.id = normSq (1 - collisionOf E (W k.1).1 (W k.1).2 k.2 0 0) ∧
      g.into K E pf.id = normSq (collisionOf E (W k.1).1 (W k.1).2 k.2 0 1)
        + normSq (collisionOf E (W k.1).1 (W k.1).2 k.2 0 2) ∧
      (∀ out, out ≠ pair.id → out ≠ pf.id → g.into K E out = 0) ∧
      g.capture K E = 1 - ∑ j, normSq (collisionOf E (W k.1).1 (W k.1).2 k.2 0 j) := by
    intro k hk g hg
    have hw := hW k.1 (mem_partialWaves (l := k.1) (J := k.2) hk).1
    exact group_values hm hs.positive hpos hq hpe hids hg hw.penetrability hw.phase (hw.levels k.2)
  have htotal : ∀ (F : RGroup → ℝ) (v : ℕ × ℚ → ℝ) (f : CoupledWave × List Coupled → ℝ),
      (∀ k ∈ partialWaves p.nlsc, ∀ g, IsRGroup K lib pair [pc, pair, pf]
        (asRMatrixLimited neutronMass A range.naps x p) E (rmlGroup (A * neutronMass) range.naps p k) g →
        F g = v k) →
      (∀ l < p.nlsc, f (W l) = ((spinsOf l).map fun J => (neutronFactor 0 |J| : ℝ) * v (l, J)).sum) →
      (List.zipWith (fun record g => c * groupFactor pair record * F g)
        (asRMatrixLimited neutronMass A range.naps x p).spinGroups gs).sum
        = c * ∑ l ∈ Finset.range p.nlsc, f (W l) := by
    intro F v f h1 h2
    have e1 := sum_zipWith (F := fun record g => c * groupFactor pair record * F g)
      (v := fun k => c * ((neutronFactor 0 |k.2| : ℝ) * v k)) hgroups (by
        intro k hk g hgk
        rw [hg k hk, h1 k hk g hgk]
        ring)
    refine e1.trans ?_
    rw [List.sum_map_mul_left, sum_partialWaves]
    congr 1
    exact Finset.sum_congr rfl fun l hl => (h2 l (Finset.mem_range.mp hl)).symm
  have elastic := htotal (fun g => g.into K E pair.id) _ (fun w => coupledElastic 0 E w.1 w.2)
    (fun k hk g hg => (hval k hk g hg).1) (fun l hl => by
      have hw := hW l hl
      have := elastic_spins (E := E) (w := (W l).1) (as := (W l).2) (by rw [hw.orbital]; exact hw.spins)
      rw [hw.orbital] at this
      exact this)
  have fission := htotal (fun g => g.into K E pf.id) _ (fun w => coupledFission 0 E w.1 w.2)
    (fun k hk g hg => (hval k hk g hg).2.1) (fun l hl => by
      have hw := hW l hl
      have := fission_spins (E := E) (w := (W l).1) (as := (W l).2) (by rw [hw.orbital]; exact hw.spins)
      rw [hw.orbital] at this
      exact this)
  have capture := htotal (fun g => g.capture K E) _ (fun w => coupledCapture 0 E w.1 w.2)
    (fun k hk g hg => (hval k hk g hg).2.2.2) (fun l hl => by
      have hw := hW l hl
      have := capture_spins (E := E) (w := (W l).1) (as := (W l).2) (by rw [hw.orbital]; exact hw.spins)
      rw [hw.orbital] at this
      exact this)
  have zero : ∀ out, out ≠ pair.id → out ≠ pf.id → (List.zipWith (fun record g => c * groupFactor pair record
      * RGroup.into g K E out) (asRMatrixLimited neutronMass A range.naps x p).spinGroups gs).sum = 0 := by
    intro out h1 h2
    have := htotal (fun g => g.into K E out) (fun _ => 0) (fun _ => 0)
      (fun k hk g hg => (hval k hk g hg).2.2.1 out h1 h2) (fun l _ => by simp)
    rw [this]
    simp
  have qE := hRL.elastic
  have qC := hRL.capture
  have qR := hRL.reaction
  rw [hfactor] at qE qC
  simp only [hfactor] at qR
  rw [elastic] at qE
  rw [capture] at qC
  rcases id with id | id
  · by_cases h1 : id = .elastic pair.id
    · rw [h1, qE, hide, rE]
    · by_cases h2 : id = .transition pair.id "capture".toList
      · rw [h2, qC, hide, rC]
      · by_cases h3 : id = .transition pair.id "fission".toList
        · have := qR "fission".toList (by rw [hide]; exact Ne.symm (comma_ne fission_comma)) (by decide)
          rw [h3, this, ← hidf, fission, hidf, hide, rF]
        · have n1 := hRM.other id (by rwa [hide] at h1) (by rwa [hide] at h2) (by rwa [hide] at h3)
          rw [n1]
          cases hid : m' (.inl id) with
          | none => rfl
          | some y =>
            rcases hRL.other id (by rw [hid]; rfl) with e | ⟨out, o1, rfl⟩
            · exact absurd e h1
            · have o2 : out ≠ "capture".toList := fun e => h2 (by rw [e])
              have o3 : out ≠ pf.id := fun e => h3 (by rw [e, hidf])
              have := qR out o1 o2
              rw [zero out o1 o3, hid] at this
              exact this.symm
  · rw [k3, j4]

/-- C91: a range in the Reich-Moore format that makes sense physically is accepted in both formats, and both
give the same cross sections at all energies at which there is no resonance without capture width. -/
theorem C91_accepted
    (hs : SimpleReichMoore A p) (h : PhysicalReichMoore neutronMass A none range.naps p)
    (hap : 0 < p.ap) (hapl : ∀ lv ∈ p.lValues, 0 ≤ lv.apl) (he : 0 ≤ elementaryCharge) (hx : 0 ≤ x.charge)
    (hq : 0 ≤ x.qCapture ∧ 0 ≤ x.qFission) (hc : CaptureNamed reactions incident target)
    (hthreshold : ∀ lv ∈ p.lValues, ∀ r ∈ lv.resonances, A / (A + 1) * r.energy + x.qCapture ≠ 0 ∧
      A / (A + 1) * r.energy + x.qFission ≠ 0)
    (ht : range.type = 1 ∧ range.representation = 3) (hp : range.parameters = .reichMoore p)
    (hr : range.scatteringRadius = none) (hn : range.naps = 0 ∨ range.naps = 1)
    (ht' : range'.type = 1 ∧ range'.representation = 7) (hr' : range'.scatteringRadius = none)
    (hp' : range'.parameters = .rmatrixLimited (asRMatrixLimited neutronMass A range.naps x p)) :
    ∃ R S, fromENDF K lib tables reactions initialBreitWigner initial neutronMass elementaryCharge incident
        target range = .ok R ∧
      fromENDF K lib tables reactions initialBreitWigner initial neutronMass elementaryCharge incident
        target range' = .ok S ∧
      ∀ E, 0 < E → range.lower ≤ E ∧ E ≤ range.upper → range'.lower ≤ E ∧ E ≤ range'.upper →
        (∀ lv ∈ p.lValues, ∀ r ∈ lv.resonances, r.energy = E → r.gammaWidth ≠ 0) →
        ∃ m R' m' S', R.call K lib E = .ok (m, R') ∧ S.call K lib E = .ok (m', S') ∧
          ∀ id, (m id).getD 0 = (m' id).getD 0 := by
  have hA := hs.positive
  have hm := h.mass
  obtain ⟨R, hR, h1⟩ := C69_accepted (K := K) (lib := lib) (tables := tables) (reactions := reactions)
    (initialBreitWigner := initialBreitWigner) (initial := initial) (elementaryCharge := elementaryCharge)
    (incident := incident) (target := target) ht hp (nro := none) (by rw [hr]; exact .none) h
  obtain ⟨pc, pe, pf, hpairs, hids, hide, -⟩ := pairs_exist (x := x) h.mass he hs.positive hx hc
  obtain ⟨S, hS, h2⟩ := C70_accepted (K := K) (lib := lib) (tables := tables)
    (initialBreitWigner := initialBreitWigner) (initial := initial) ht' hp' hr'
    (physical h.mass hs hpairs hids h.waves hap hapl fun lv hlv r hr =>
      ⟨h.energies lv hlv r hr, hthreshold lv hlv r hr⟩)
  refine ⟨R, S, hR, hS, fun E hE hin hin' hpole => ?_⟩
  have hradii : ∀ ap, 0 < ap → RadiiAt neutronMass A none range.naps ap E := by
    intro ap hap
    have hmass : 0 < A * neutronMass := by positivity
    have hroot := Real.rpow_pos_of_pos hmass (1 / 3)
    rcases hn with e | e
    · rw [e]
      refine ⟨fun _ => .ok (0.123 * (A * neutronMass) ^ (1 / 3 : ℝ) + 0.08), fun _ => .ok ap,
        ⟨.mass, .constant, rfl, fun _ => ⟨⟨(A * neutronMass) ^ (1 / 3 : ℝ), hroot.le, ?_, rfl⟩, rfl⟩⟩,
        ⟨_, by positivity, rfl⟩, _, rfl⟩
      rw [← Real.rpow_natCast, ← Real.rpow_mul hmass.le]
      norm_num
    · rw [e]
      exact ⟨fun _ => .ok ap, fun _ => .ok ap, ⟨.constant, .constant, rfl, fun _ => ⟨rfl, rfl⟩⟩,
        ⟨_, hap, rfl⟩, _, rfl⟩
  obtain ⟨⟨m, R'⟩, hv⟩ := h1 E hE.ne' (hradii _ hap) (fun lv hlv => hradii _ (lengthOf_pos hap (hapl lv hlv)))
    hpole
  have hpe : IsPair reactions neutronMass elementaryCharge incident target
      ⟨1, A, 0, x.charge, 1 / 2, 0, 0, 1, 0, 0, 2⟩ pe := by
    cases hpairs with
    | cons _ h => cases h with
      | cons h _ => exact h
  have hratio : 0 < pe.massRatio * E := by
    rw [hpe.ratio, hpe.masses.1, hpe.masses.2, one_mul]
    positivity
  obtain ⟨⟨m', S'⟩, hv'⟩ := h2 E (by
      intro row hrow
      simp only [asRMatrixLimited, rmlPairs, List.mem_cons, List.not_mem_nil, or_false] at hrow
      rcases hrow with rfl | rfl | rfl
      · show pe.massRatio * E + x.qCapture ≠ 0
        linarith [hq.1]
      · show pe.massRatio * E + 0 ≠ 0
        linarith
      · show pe.massRatio * E + x.qFission ≠ 0
        linarith [hq.2]) (by
      intro record hrec v hvr hvE
      obtain ⟨k, hk, rfl⟩ := List.mem_map.mp hrec
      obtain ⟨r, hr, rfl⟩ := List.mem_map.mp hvr
      unfold resonancesOf at hr
      obtain ⟨lv, hlv, hr⟩ := List.mem_flatMap.mp (List.mem_filter.mp hr).1
      exact ⟨0, _, _, rfl, ⟨_, rfl, rfl⟩, rfl, hpole lv (List.mem_filter.mp hlv).1 r hr hvE⟩)
  exact ⟨m, R', m', S', hv, hv', fun id => C91_cross_sections hs h.mass he hx hq.2 hc hR hp hr hn hS hp' hE.le
    hin hin' hv hv' id⟩

/-! ## Example -/

namespace Example

/-- Two resonances with fission for l = 0, one for l = 1 with a radius of its own that has no resonance for
the other J. -/
noncomputable def evaluation : ReichMoore := ⟨0, 1, 3, [⟨0, 236, 0, [⟨5, 1 / 2, 2, 3, -1, 0⟩,
  ⟨-7, 1 / 2, 1, 1, 4, 0⟩]⟩, ⟨1, 236, 1, [⟨9, 3 / 2, 1, 2, 0, 0⟩]⟩]⟩

theorem simple : SimpleReichMoore 236 evaluation := by
  refine ⟨by norm_num, rfl, ?_, ?_, ?_, ?_, ?_, ?_, ?_, ?_⟩
  · simp [evaluation]
  · simp [evaluation]
  · simp [evaluation]
  · simp [evaluation, spinsOf]
    norm_num
  · simp [evaluation]
  · simp [evaluation]
  · simp [evaluation]
  · intro J parity
    refine List.Nodup.sublist ((List.filter_sublist).map _) ?_
    refine List.Nodup.sublist (List.Sublist.map _ (List.Sublist.flatMap List.filter_sublist _)) ?_
    norm_num [evaluation]

theorem physical : PhysicalReichMoore 1 236 none 1 evaluation := by
  refine ⟨one_pos, by norm_num, simple.ratio, ⟨0, by norm_num [evaluation]⟩, by simp [evaluation],
    simple.distinct, by simp [evaluation], by simp [evaluation], ⟨?_, ?_⟩, ?_, by simp [evaluation],
    simple.energies, ?_⟩
  · intro lv hlv r hr
    simp only [evaluation, List.mem_cons, List.not_mem_nil, or_false] at hlv
    rcases hlv with rfl | rfl <;> simp only [List.mem_cons, List.not_mem_nil, or_false] at hr
    · refine ⟨by norm_num [evaluation], 1 / 2, ⟨?_, ?_, 1, ?_⟩, ?_⟩
      · norm_num [evaluation, abs_of_pos]
      · norm_num [evaluation]
      · norm_num [evaluation]
      · rcases hr with rfl | rfl <;> refine ⟨?_, ?_, 1, ?_⟩ <;> norm_num [abs_of_pos, abs_of_neg]
    · obtain rfl := hr
      refine ⟨by norm_num [evaluation], 1 / 2, ⟨?_, ?_, 1, ?_⟩, ?_, ?_, 3, ?_⟩ <;>
        norm_num [evaluation, abs_of_pos]
  · intro lv hlv r hr r' hr' _ e
    have h1 := spinsOf_pos (simple.spins lv hlv r hr)
    have h2 := spinsOf_pos (simple.spins lv hlv r' hr')
    linarith
  · intro lv hlv r hr r' hr' _ e
    have h1 := spinsOf_pos (simple.spins lv hlv r hr)
    have h2 := spinsOf_pos (simple.spins lv hlv r' hr')
    linarith
  · intro lv hlv
    refine ⟨fun _ => .ok (lengthOf evaluation lv), fun _ => .ok (lengthOf evaluation lv),
      ⟨.constant, .constant, rfl, fun _ => ⟨rfl, rfl⟩⟩, fun r _ => ⟨_, ?_, rfl⟩⟩
    simp only [evaluation, List.mem_cons, List.not_mem_nil, or_false] at hlv
    rcases hlv with rfl | rfl <;> norm_num [lengthOf, evaluation]

/-- The example is accepted in both formats and has the same cross sections. -/
example (K : Constants) (lib : CoulombLibrary) (tables : InterpolationLibrary)
    (initialBreitWigner : Channel → Verif.BreitWigner.Cache)
    (initial : (g : SpinGroup) → MatrixCache g.channels.length) :
    let range : Range := ⟨0, 10, 1, 3, 1, none, .reichMoore evaluation⟩
    let range' : Range := ⟨0, 10, 1, 7, 1, none,
      .rmatrixLimited (asRMatrixLimited 1 236 1 ⟨92, 6, 200⟩ evaluation)⟩
    let reactions : ReactionLibrary := fun _ _ _ => .ok ("g".toList, "U237".toList)
    ∃ R S m R' m' S', fromENDF K lib tables reactions initialBreitWigner initial 1 1 "n".toList "U236".toList
        range = .ok R ∧
      fromENDF K lib tables reactions initialBreitWigner initial 1 1 "n".toList "U236".toList range' = .ok S ∧
      R.call K lib 5 = .ok (m, R') ∧ S.call K lib 5 = .ok (m', S') ∧ ∀ id, (m id).getD 0 = (m' id).getD 0 := by
  intro range range' reactions
  obtain ⟨R, S, h1, h2, h3⟩ := C91_accepted (K := K) (lib := lib) (tables := tables) (reactions := reactions)
    (initialBreitWigner := initialBreitWigner) (initial := initial) (elementaryCharge := 1)
    (incident := "n".toList) (target := "U236".toList) (range := range) (range' := range') (A := 236)
    (neutronMass := 1) (x := ⟨92, 6, 200⟩) simple physical (by norm_num [evaluation])
    (by simp [evaluation]) zero_le_one (by norm_num) (by norm_num)
    ⟨"g".toList, "U237".toList, rfl, by decide⟩ (by norm_num [evaluation]) ⟨rfl, rfl⟩ rfl rfl (.inr rfl)
    ⟨rfl, rfl⟩ rfl rfl
  obtain ⟨m, R', m', S', h4, h5, h6⟩ := h3 5 (by norm_num) (by norm_num [range]) (by norm_num [range'])
    (by norm_num [evaluation])
  exact ⟨R, S, m, R', m', S', h1, h2, h4, h5, h6⟩

end Example

end Verif.Formats
