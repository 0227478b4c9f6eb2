import Verif.Props.IdleReichMoore
import Verif.Props.OrderMore

/-!
# C77 for R-matrix-limited ranges: resonances with capture widths only may be left out
-/

namespace Verif.Endf

open Spec Complex

/-- The second spin group has all resonances of the first, in any order, but for some with no width other than
that for capture. -/
structure WithoutIdleLimited (p : RMatrixLimited) (record record' : SpinGroupRecord) : Prop where
  spin : record.spin = record'.spin
  parity : record.parity = record'.parity
  channels : record.channels = record'.channels
  resonances : ∃ idle, record.resonances.Perm (record'.resonances ++ idle) ∧
    ∀ v ∈ idle, ∀ (i : ℕ) row width, record.channels[i]? = some row → ¬ Captures p row →
      v.2[i]? = some width → width = 0
  number : record'.numberResonances = 0 → record'.resonances = []

/-- An R-matrix-limited evaluation and the same one without such resonances. -/
structure LeavesOutIdleLimited (p p' : RMatrixLimited) : Prop where
  formalism : p.formalism = p'.formalism
  reducedWidths : p.reducedWidths = p'.reducedWidths
  pairs : p.pairs = p'.pairs
  spinGroups : List.Forall₂ (WithoutIdleLimited p) p.spinGroups p'.spinGroups

variable {K : Constants} {lib : CoulombLibrary} {tables : InterpolationLibrary}
  {initialBreitWigner : Channel → Verif.BreitWigner.Cache} {neutronMass elementaryCharge E q : ℝ}
  {incident target : Str} {reactions : ReactionLibrary}
  {initial : (g : SpinGroup) → MatrixCache g.channels.length} {range : Range}
  {R R' R₁ R₁' : Reconstructor} {m m' : ReactionMap} {p p' : RMatrixLimited} {pairs : List ParticlePair}
  {pair : ParticlePair}

theorem WithoutIdleLimited.mem {record record' : SpinGroupRecord} (h : WithoutIdleLimited p record record') :
    ∀ v ∈ record'.resonances, v ∈ record.resonances := by
  intro v hv
  obtain ⟨idle, hp, -⟩ := h.resonances
  exact hp.symm.subset (List.mem_append_left _ hv)

theorem LeavesOutIdleLimited.mem (h : LeavesOutIdleLimited p p') {record' : SpinGroupRecord}
    (hr : record' ∈ p'.spinGroups) : ∃ record ∈ p.spinGroups, WithoutIdleLimited p record record' := by
  obtain ⟨j, hj, rfl⟩ := List.getElem_of_mem hr
  have hj' : j < p.spinGroups.length := by rw [h.spinGroups.length_eq]; exact hj
  exact ⟨_, List.getElem_mem hj', forall₂_index h.spinGroups (List.getElem?_eq_getElem hj')
    (List.getElem?_eq_getElem hj)⟩

theorem group_idle {record record' : SpinGroupRecord} {g : RGroup} (hs : WithoutIdleLimited p record record')
    (hp : p.pairs = p'.pairs) (hw : p.reducedWidths = p'.reducedWidths)
    (h : IsRGroup K lib pair pairs p E record g) :
    ∃ g', IsRGroup K lib pair pairs p' E record' g' ∧
      (∀ out, g.into K E out = g'.into K E out) ∧ g.capture K E = g'.capture K E := by
  obtain ⟨n, channel, elim, own, P, S, φ, levels⟩ := g
  obtain ⟨idle, q1, q2⟩ := hs.resonances
  obtain ⟨bs, zs, l1, lz, l2⟩ : ∃ bs zs : List (RLevel n),
      List.Forall₂ (fun (r : ℝ × List ℝ) (v : RLevel n) => v.energy = r.1 ∧
        ∀ i : Fin n, ∃ width, r.2[i.1]? = some width ∧
          IsRWidth K lib p.reducedWidths (channel i) r.1 width (v.width i)) record'.resonances bs ∧
      List.Forall₂ (fun (r : ℝ × List ℝ) (v : RLevel n) => v.energy = r.1 ∧
        ∀ i : Fin n, ∃ width, r.2[i.1]? = some width ∧
          IsRWidth K lib p.reducedWidths (channel i) r.1 width (v.width i)) idle zs ∧
      levels.Perm (bs ++ zs) := by
    obtain ⟨levels', l1, l2, -⟩ := perm_along q1 h.levels
    obtain ⟨bs, zs, b1, b2, rfl⟩ := forall₂_split l1
    exact ⟨bs, zs, b1, b2, l2⟩
  set g : RGroup := ⟨n, channel, elim, own, P, S, φ, levels⟩ with hg
  set g' : RGroup := ⟨n, channel, elim, own, P, S, φ, bs⟩ with hg'
  have hzero : ∀ v ∈ zs, ∀ c, g.amplitude E v c = 0 := by
    intro v hv c
    unfold RGroup.amplitude
    split
    · rfl
    · rename_i hc
      have hne : ¬ elim c := fun he => hc (.inl he)
      obtain ⟨r, hr, -, hk⟩ := forall₂_mem_right lz hv
      obtain ⟨width, w1, w2⟩ := hk c
      obtain ⟨row, k1, k2⟩ := forall₂_ofFn h.channels c
      have h0 : width = 0 := q2 r hr c.1 row width k1 (by
        rintro ⟨pr, k3, k4⟩
        exact hne (((h.flags c row pr k1 k3).1).mpr k4)) w1
      subst h0
      unfold IsRWidth at w2
      rw [if_pos rfl] at w2
      split at w2 <;> exact w2
  have hR : g'.R E = g.R E := by
    ext c c'
    have h1 : g.R E c c' = ((bs ++ zs).map fun v : RLevel n => (g.amplitude E v c : ℂ) * g.amplitude E v c'
        / ((v.energy : ℂ) - E - I * g.captureHalf v)).sum := by
      unfold RGroup.R
      simp only [Matrix.of_apply]
      exact (l2.map fun v : RLevel n => (g.amplitude E v c : ℂ) * g.amplitude E v c'
        / ((v.energy : ℂ) - E - I * g.captureHalf v)).sum_eq
    rw [h1, List.map_append, List.sum_append]
    have h2 : (zs.map fun v : RLevel n => (g.amplitude E v c : ℂ) * g.amplitude E v c'
        / ((v.energy : ℂ) - E - I * g.captureHalf v)).sum = 0 := by
      apply List.sum_eq_zero
      intro x hx
      obtain ⟨v, hv, rfl⟩ := List.mem_map.mp hx
      simp [hzero v hv c]
    rw [h2, add_zero]
    rfl
  have hT : g'.T E = g.T E := by
    unfold RGroup.T
    rw [hR]
    rfl
  have hU : g'.U K E = g.U K E := by
    unfold RGroup.U
    rw [hT]
  have hsub : ∀ v ∈ bs, v ∈ levels := fun v hv => l2.symm.subset (List.mem_append_left _ hv)
  have hpart : ∀ i : Fin n, g'.TakesPart i → g.TakesPart i := by
    rintro i ⟨h1, h2⟩
    refine ⟨h1, h2.imp id ?_⟩
    rintro ⟨v, hv, hne⟩
    exact ⟨v, hsub v hv, hne⟩
  refine ⟨g', ?_, ?_, ?_⟩
  · refine ⟨?_, ?_, ?_, ?_, ?_, ?_, ?_, ?_⟩
    · rw [← hs.spin, ← hs.parity, ← hs.channels, ← hp]
      exact h.channels
    · rw [← hs.channels, ← hp]
      exact h.flags
    · exact fun i hi => h.penetrability i (hpart i hi)
    · exact fun i hi => h.shiftFactor i (hpart i hi)
    · exact fun i hi => h.phase i (hpart i hi)
    · rw [← hw]
      exact l1
    · exact fun v hv => h.finite.1 v (hsub v hv)
    · rw [hR]
      exact h.finite.2
  · intro out
    unfold RGroup.into
    rw [hU]
    rfl
  · unfold RGroup.capture
    rw [hU]
    rfl

/-- The formula for a range holds without the resonances that have capture widths only. -/
theorem isRMatrix_idle {gs : List RGroup} {m : ReactionID → Option ℝ} (hs : LeavesOutIdleLimited p p')
    (h : IsRMatrix K lib pair q pairs p E gs m) : ∃ gs', IsRMatrix K lib pair q pairs p' E gs' m := by
  obtain ⟨-, s1, s2, s3⟩ := hs
  obtain ⟨vs, v1, v2⟩ := relate_along (P' := IsRGroup K lib pair pairs p' E)
    (V := fun g g' => (∀ out, g.into K E out = g'.into K E out) ∧ g.capture K E = g'.capture K E) s3 h.groups
    fun x z w hxz hw => group_idle hxz s2 s1 hw
  have sums : ∀ (c : ℝ) (t : RGroup → ℝ), (∀ g g' : RGroup, (∀ out, g.into K E out = g'.into K E out) ∧
        g.capture K E = g'.capture K E → t g = t g') →
      (List.zipWith (fun record g => c * groupFactor pair record * t g) p.spinGroups gs).sum
      = (List.zipWith (fun record g => c * groupFactor pair record * t g) p'.spinGroups vs).sum := by
    intro c t ht
    refine zipWith_sum_related s3 v2 fun x z w w' hxz hww => ?_
    unfold groupFactor
    rw [hxz.spin, ht _ _ hww]
  refine ⟨vs, v1, ?_, ?_, ?_, h.finite, h.other⟩
  · rw [h.elastic]
    exact congrArg _ (sums _ (fun g => g.into K E pair.id) fun g g' k => k.1 _)
  · rw [h.capture]
    exact congrArg _ (sums _ (fun g => g.capture K E) fun g g' k => k.2)
  · intro out h1 h2
    rw [h.reaction out h1 h2]
    exact sums _ (fun g => g.into K E out) fun g g' k => k.1 _

theorem ordered_idle {record record' : SpinGroupRecord} (hs : WithoutIdleLimited p record record')
    (hp : p.pairs = p'.pairs) (h : Ordered pairs p record) : Ordered pairs p' record' := by
  have hc : ∀ row, Captures p' row ↔ Captures p row := by
    intro row
    unfold Captures
    rw [hp]
  refine ⟨?_, ?_, ?_, ?_, ?_, hs.number⟩
  · rw [← hs.channels, ← hp]
    exact h.count
  · rw [← hs.channels, ← hp]
    exact h.number
  · rw [← hs.channels, ← hp]
    exact h.type
  · rw [← hs.channels]
    intro i j a b h1 h2 h3 h4
    exact h.capture i j a b h1 h2 ((hc a).mp h3) ((hc b).mp h4)
  · obtain ⟨idle, hperm, -⟩ := hs.resonances
    have := (hperm.map Prod.fst).nodup_iff.mp h.energies
    rw [List.map_append] at this
    exact this.of_append_left

theorem differ_idle (hs : LeavesOutIdleLimited p p')
    (h : p.spinGroups.Pairwise fun a b => ¬ SameSpinParity a b) :
    p'.spinGroups.Pairwise fun a b => ¬ SameSpinParity a b := by
  have s3 := hs.spinGroups
  generalize p'.spinGroups = rs' at s3
  generalize p.spinGroups = rs at s3 h
  induction s3 with
  | nil => exact .nil
  | @cons a b as bs r1 r2 ih =>
    rw [List.pairwise_cons] at h ⊢
    refine ⟨fun z hz => ?_, ih h.2⟩
    obtain ⟨x, hx, hxz⟩ := forall₂_mem_right r2 hz
    intro hsame
    refine h.1 x hx ?_
    unfold SameSpinParity at hsame ⊢
    rw [r1.spin, r1.parity, hxz.spin, hxz.parity]
    exact hsame

/-- C77 for R-matrix-limited ranges, in the cases of C70: resonances that have no other widths than those for
capture may be left out. -/
theorem C77_rmatrix_limited
    (hR : fromENDF K lib tables reactions initialBreitWigner initial neutronMass elementaryCharge incident
      target range = .ok R)
    (hR' : fromENDF K lib tables reactions initialBreitWigner initial neutronMass elementaryCharge incident
      target { range with parameters := .rmatrixLimited p' } = .ok R')
    (hp : range.parameters = .rmatrixLimited p) (hs : LeavesOutIdleLimited p p')
    (hpairs : List.Forall₂ (IsPair reactions neutronMass elementaryCharge incident target) p.pairs pairs)
    (hids : (pairs.map ParticlePair.id).Nodup)
    (hflags : ∀ a ∈ p.pairs, ∀ b ∈ p.pairs, a.shiftFactorFlag = 0 → b.shiftFactorFlag = 0)
    (hneutral : ∀ row ∈ p.pairs, row.mt = 2 → row.chargeA = 0)
    (ho : ∀ record ∈ p.spinGroups, Ordered pairs p record)
    (hd : p.spinGroups.Pairwise fun a b => ¬ SameSpinParity a b)
    (hE : range.lower ≤ E ∧ E ≤ range.upper) (hm : R.call K lib E = .ok (m, R₁))
    (hm' : R'.call K lib E = .ok (m', R₁')) : SameCrossSections m m' := by
  have hpp := hs.pairs
  obtain ⟨i, row, pair, gs, a1, a2, a3, g1, o1⟩ :=
    C70_partial hR hp hpairs hids hflags hneutral ho hd hE hm
  obtain ⟨i', row', pair', gs', b1, b2, b3, g2, o2⟩ :=
    C70_partial (p := p') hR' rfl (hpp ▸ hpairs) hids (hpp ▸ hflags) (hpp ▸ hneutral) (by
      intro record hrec
      obtain ⟨x, hx, hxz⟩ := hs.mem hrec
      exact ordered_idle hxz hpp (ho x hx)) (differ_idle hs hd) hE hm'
  rw [← hpp] at b1
  have k1 := forall₂_index hpairs a1 a3
  have k2 := forall₂_index hpairs b1 b3
  have hii : i = i' := by
    refine (List.getElem?_inj (l := pairs.map ParticlePair.id) ?_ hids).mp ?_
    · rw [List.length_map]
      exact (List.getElem?_eq_some_iff.mp a3).1
    · rw [List.getElem?_map, List.getElem?_map, a3, b3]
      have e1 := k1.name
      have e2 := k2.name
      unfold IsName at e1 e2
      rw [if_pos a2] at e1
      rw [if_pos b2] at e2
      exact congrArg some (e1.2.2.trans e2.2.2.symm)
  subst hii
  obtain rfl := Option.some.inj (a1.symm.trans b1)
  obtain rfl := Option.some.inj (a3.symm.trans b3)
  have hin : IncidentPair pairs p' pair := by
    refine ⟨⟨i, row, hpp ▸ a1, a2, a3⟩, hids, ?_⟩
    rw [k1.charges.1, hneutral row (List.mem_of_getElem? a1) a2, zero_mul]
  obtain ⟨vs, g3⟩ := isRMatrix_idle hs g1
  rintro (id | id)
  · exact isRMatrix_unique hin g3 g2 id
  · rw [o1, o2]

theorem admissibleRMatrix_idle (hs : LeavesOutIdleLimited p p')
    (h : AdmissibleRMatrix reactions neutronMass elementaryCharge incident target p pairs pair) :
    AdmissibleRMatrix reactions neutronMass elementaryCharge incident target p' pairs pair where
  formalism := hs.formalism ▸ h.formalism
  described := hs.pairs ▸ h.described
  distinct := h.distinct
  neutral := hs.pairs ▸ h.neutral
  masses := hs.pairs ▸ h.masses
  elastic := hs.pairs ▸ h.elastic
  capture := hs.pairs ▸ h.capture
  some := by
    intro he
    have := hs.spinGroups.length_eq
    rw [he, List.length_nil, List.length_eq_zero_iff] at this
    exact h.some this
  ordered := by
    intro record hrec
    obtain ⟨x, hx, hxz⟩ := hs.mem hrec
    exact ordered_idle hxz hs.pairs (h.ordered x hx)
  groups := differ_idle hs h.groups
  spins := by
    intro record hrec
    obtain ⟨x, hx, hxz⟩ := hs.mem hrec
    rw [← hxz.spin, ← hxz.channels]
    exact h.spins x hx
  entrance := by
    intro record hrec
    obtain ⟨x, hx, hxz⟩ := hs.mem hrec
    rw [← hxz.channels, ← hs.pairs]
    exact h.entrance x hx
  channels := by
    intro record hrec
    obtain ⟨x, hx, hxz⟩ := hs.mem hrec
    rw [← hxz.channels]
    exact h.channels x hx
  widths := by
    intro record hrec v hv
    obtain ⟨x, hx, hxz⟩ := hs.mem hrec
    rw [← hxz.channels]
    exact h.widths x hx v (hxz.mem v hv)
  particles := by
    intro record hrec
    obtain ⟨x, hx, hxz⟩ := hs.mem hrec
    rw [← hxz.channels, ← hs.pairs]
    exact h.particles x hx

theorem workingEnergy_idle (hs : LeavesOutIdleLimited p p') (h : WorkingEnergy K lib p pairs pair E) :
    WorkingEnergy K lib p' pairs pair E where
  threshold := hs.pairs ▸ h.threshold
  charged := by
    intro record hrec
    obtain ⟨x, hx, hxz⟩ := hs.mem hrec
    rw [← hxz.channels, ← hs.pairs]
    exact h.charged x hx

/-- C77: a range that makes sense physically is accepted with and without these resonances, and has the same
cross sections. -/
theorem C77_rmatrix_limited_accepted
    (ht : range.type = 1 ∧ range.representation = 7) (hp : range.parameters = .rmatrixLimited p)
    (hr : range.scatteringRadius = none)
    (h : AdmissibleRMatrix reactions neutronMass elementaryCharge incident target p pairs pair)
    (hth : p.reducedWidths = 0 → ∀ record ∈ p.spinGroups, ∀ v ∈ record.resonances,
      WorkingEnergy K lib p pairs pair v.1)
    (hflags : ∀ a ∈ p.pairs, ∀ b ∈ p.pairs, a.shiftFactorFlag = 0 → b.shiftFactorFlag = 0)
    (hs : LeavesOutIdleLimited p p') :
    ∃ R R', fromENDF K lib tables reactions initialBreitWigner initial neutronMass elementaryCharge incident
        target range = .ok R ∧
      fromENDF K lib tables reactions initialBreitWigner initial neutronMass elementaryCharge incident
        target { range with parameters := .rmatrixLimited p' } = .ok R' ∧
      ∀ E, range.lower ≤ E ∧ E ≤ range.upper → WorkingEnergy K lib p pairs pair E →
        (∀ record ∈ p.spinGroups, ∀ v ∈ record.resonances, v.1 = E →
          ∃ (i : ℕ) (row : ChannelRow) (width : ℝ), record.channels[i]? = some row ∧ Captures p row ∧
            v.2[i]? = some width ∧ width ≠ 0) →
        ∃ m m' R₁ R₁', R.call K lib E = .ok (m, R₁) ∧ R'.call K lib E = .ok (m', R₁') ∧
          SameCrossSections m m' := by
  obtain ⟨R, h1, h2⟩ := C70_charged_accepted (K := K) (lib := lib) (tables := tables)
    (initialBreitWigner := initialBreitWigner) (initial := initial) ht hp hr h hth
  obtain ⟨R', h3, h4⟩ := C70_charged_accepted (K := K) (lib := lib) (tables := tables)
    (initialBreitWigner := initialBreitWigner) (initial := initial) (p := p')
    (range := { range with parameters := .rmatrixLimited p' }) ht rfl hr (admissibleRMatrix_idle hs h)
    (fun hred record hrec v hv => by
      obtain ⟨x, hx, hxz⟩ := hs.mem hrec
      exact workingEnergy_idle hs (hth (hs.reducedWidths.trans hred) x hx v (hxz.mem v hv)))
  refine ⟨R, R', h1, h3, fun E hE hwork hpole => ?_⟩
  obtain ⟨⟨m, R₁⟩, h5⟩ := h2 E hwork hpole
  obtain ⟨⟨m', R₁'⟩, h6⟩ := h4 E (workingEnergy_idle hs hwork) fun record hrec v hv hvE => by
    obtain ⟨x, hx, hxz⟩ := hs.mem hrec
    obtain ⟨i, row, width, q1, q2, q3, q4⟩ := hpole x hx v (hxz.mem v hv) hvE
    refine ⟨i, row, width, hxz.channels ▸ q1, ?_, q3, q4⟩
    obtain ⟨pr, q5, q6⟩ := q2
    exact ⟨pr, hs.pairs ▸ q5, q6⟩
  exact ⟨m, m', R₁, R₁', h5, h6, C77_rmatrix_limited h1 h3 hp hs h.described h.distinct hflags
    h.neutral h.ordered h.groups hE h5 h6⟩

namespace Example

/-- The spin group of the example of C70, with a further resonance at 20 that only has a capture width. -/
noncomputable def idleRecord : SpinGroupRecord :=
  { waveRecord with numberResonances := 2, resonances := [(20, [3, 0]), (10, [1, 1])] }

/-- The evaluation with this spin group. -/
noncomputable def idleEvaluation (a b : ℤ) : RMatrixLimited := { waveEvaluation a b with spinGroups := [idleRecord] }

theorem idleLimited_physical (a b : ℤ) : PhysicalRMatrix reactionLibrary 1 1 "n".toList "Cl35".toList
    (idleEvaluation a b) [photonPair, neutronPair] neutronPair := by
  have h := wave_physical a b
  have ho := waveRecord_ordered a b
  have hw : waveRecord ∈ (waveEvaluation a b).spinGroups := List.mem_singleton.mpr rfl
  refine ⟨rfl, h.described, h.distinct, h.neutral, h.masses, h.elastic, h.capture, by simp [idleEvaluation],
    ?_, List.pairwise_singleton _ _, ?_, ?_, ?_, ?_, ?_, ?_⟩
  · intro record hr
    obtain rfl := List.mem_singleton.mp hr
    exact ⟨ho.count, ho.number, ho.type, ho.capture, by norm_num [idleRecord], by simp [idleRecord]⟩
  · intro record hr
    obtain rfl := List.mem_singleton.mp hr
    exact h.spins waveRecord hw
  · intro record hr
    obtain rfl := List.mem_singleton.mp hr
    exact h.entrance waveRecord hw
  · intro record hr
    obtain rfl := List.mem_singleton.mp hr
    exact h.channels waveRecord hw
  · intro record hr v hv
    obtain rfl := List.mem_singleton.mp hr
    simp only [idleRecord, List.mem_cons, List.not_mem_nil, or_false] at hv
    rcases hv with rfl | rfl <;> simp [idleRecord, waveRecord]
  · intro record hr
    obtain rfl := List.mem_singleton.mp hr
    exact h.particles waveRecord hw
  · intro h
    simp [idleEvaluation, waveEvaluation] at h

/-- It may be left out. -/
theorem idleLimited_leaves (a b : ℤ) : LeavesOutIdleLimited (idleEvaluation a b) (waveEvaluation a b) where
  formalism := rfl
  reducedWidths := rfl
  pairs := rfl
  spinGroups := .cons ⟨rfl, rfl, rfl, ⟨[(20, [3, 0])], List.Perm.swap _ _ _, by
    intro v hv i row width hi hc hw
    obtain rfl := List.mem_singleton.mp hv
    match i with
    | 0 =>
      obtain rfl := Option.some.inj hi
      exact absurd ⟨_, rfl, rfl⟩ hc
    | 1 => exact (Option.some.inj hw).symm
    | i + 2 => cases hw⟩, by simp [waveRecord]⟩ .nil

/-- Both ranges are accepted, and have the same cross sections at 10. -/
example (K : Constants) (lib : CoulombLibrary) (tables : InterpolationLibrary)
    (initialBreitWigner : Channel → Verif.BreitWigner.Cache)
    (initial : (g : SpinGroup) → MatrixCache g.channels.length) (a : ℤ) :
    ∃ R R' m m' R₁ R₁', fromENDF K lib tables reactionLibrary initialBreitWigner initial 1 1 "n".toList
        "Cl35".toList { waveRange a a with parameters := .rmatrixLimited (idleEvaluation a a) } = .ok R ∧
      fromENDF K lib tables reactionLibrary initialBreitWigner initial 1 1 "n".toList
        "Cl35".toList (waveRange a a) = .ok R' ∧ R.call K lib 10 = .ok (m, R₁) ∧
      R'.call K lib 10 = .ok (m', R₁') ∧ SameCrossSections m m' := by
  have hp := idleLimited_physical a a
  have hth : ∀ row ∈ (idleEvaluation a a).pairs, neutronPair.massRatio * 10 + row.q ≠ 0 := by
    intro row hrow
    simp only [idleEvaluation, waveEvaluation, flagRows, List.mem_cons, List.not_mem_nil, or_false] at hrow
    rcases hrow with rfl | rfl <;> norm_num [neutronPair]
  obtain ⟨R, R', h1, h2, h3⟩ := C77_rmatrix_limited_accepted (K := K) (lib := lib) (tables := tables)
    (initialBreitWigner := initialBreitWigner) (initial := initial)
    (range := { waveRange a a with parameters := .rmatrixLimited (idleEvaluation a a) }) ⟨rfl, rfl⟩ rfl rfl
    (PhysicalRMatrix.admissible hp) (fun h => absurd h one_ne_zero) (by
      intro x hx y hy hxa
      simp only [idleEvaluation, waveEvaluation, flagRows, List.mem_cons, List.not_mem_nil, or_false] at hx hy
      rcases hx with rfl | rfl <;> rcases hy with rfl | rfl <;> exact hxa) (idleLimited_leaves a a)
  obtain ⟨m, m', R₁, R₁', h4, h5, h6⟩ := h3 10 (by norm_num [waveRange]) (PhysicalRMatrix.working hp hth) (by
    intro record hr v hv hE
    obtain rfl := List.mem_singleton.mp hr
    simp only [idleRecord, List.mem_cons, List.not_mem_nil, or_false] at hv
    rcases hv with rfl | rfl
    · exact ⟨0, _, 3, rfl, ⟨_, rfl, rfl⟩, rfl, by norm_num⟩
    · exact ⟨0, _, 1, rfl, ⟨_, rfl, rfl⟩, rfl, one_ne_zero⟩)
  exact ⟨R, R', m, m', R₁, R₁', h1, h2, h4, h5, h6⟩

end Example

end Verif.Endf
