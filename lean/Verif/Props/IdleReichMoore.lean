import Verif.Props.IdleOld

/-!
# C77 for Reich-Moore ranges: resonances without neutron and fission widths may be left out
-/

namespace Verif.Endf

open Spec Complex

/-- The second l value has all resonances of the first, in any order, but for some without neutron and fission
widths. It keeps one for each (signed) J. -/
structure WithoutIdleCoupled (lv lv' : ReichMooreLValue) : Prop where
  l : lv.l = lv'.l
  awri : lv.awri = lv'.awri
  apl : lv.apl = lv'.apl
  resonances : ∃ idle, lv.resonances.Perm (lv'.resonances ++ idle) ∧
    ∀ r ∈ idle, r.neutronWidth = 0 ∧ r.firstFissionWidth = 0 ∧ r.secondFissionWidth = 0
  spins : ∀ r ∈ lv.resonances, ∃ r' ∈ lv'.resonances, r'.spin = r.spin

/-- A Reich-Moore evaluation and the same one without resonances that have no neutron and fission widths. -/
structure LeavesOutIdleCoupled (p p' : ReichMoore) : Prop where
  spin : p.spin = p'.spin
  ap : p.ap = p'.ap
  nlsc : p.nlsc = p'.nlsc
  lValues : List.Forall₂ WithoutIdleCoupled p.lValues p'.lValues

variable {K : Constants} {lib : CoulombLibrary} {tables : InterpolationLibrary}
  {initialBreitWigner : Channel → Verif.BreitWigner.Cache} {neutronMass elementaryCharge A E : ℝ}
  {incident target : Str} {reactions : ReactionLibrary}
  {initial : (g : SpinGroup) → MatrixCache g.channels.length} {range : Range} {naps : ℤ}
  {R R' R₁ R₁' : Reconstructor} {nro : Option (ℝ → Outcome ℝ)} {p p' : ReichMoore}

theorem WithoutIdleCoupled.mem {lv lv' : ReichMooreLValue} (h : WithoutIdleCoupled lv lv') :
    ∀ r ∈ lv'.resonances, r ∈ lv.resonances := by
  intro r hr
  obtain ⟨idle, hp, -⟩ := h.resonances
  exact hp.symm.subset (List.mem_append_left _ hr)

theorem WithoutIdleCoupled.empty {lv lv' : ReichMooreLValue} (h : WithoutIdleCoupled lv lv') :
    lv.resonances = [] ↔ lv'.resonances = [] := by
  simp only [List.eq_nil_iff_forall_not_mem]
  constructor
  · intro e r hr
    exact e r (h.mem r hr)
  · intro e r hr
    obtain ⟨r', hr', -⟩ := h.spins r hr
    exact e r' hr'

theorem givenFactor_idle {spin : ℚ} {lv lv' : ReichMooreLValue} (h : WithoutIdleCoupled lv lv') :
    givenFactor spin lv = givenFactor spin lv' := by
  unfold givenFactor
  refine Finset.sum_congr (Finset.ext fun J => ?_) fun _ _ => rfl
  rw [List.mem_toFinset, List.mem_toFinset, List.mem_map, List.mem_map]
  constructor
  · rintro ⟨r, hr, rfl⟩
    exact h.spins r hr
  · rintro ⟨r, hr, e⟩
    exact ⟨r, h.mem r hr, e⟩

theorem missingFactor_idle (h : LeavesOutIdleCoupled p p') (l : ℕ) :
    missingFactor p l = missingFactor p' l := by
  unfold missingFactor
  congr 1
  rw [← h.spin]
  have h1 := h.lValues
  generalize p.lValues = lvs at h1
  generalize p'.lValues = lvs' at h1
  induction h1 with
  | nil => rfl
  | cons r _ ih =>
    rw [List.filter_cons, List.filter_cons, r.l]
    split
    · rw [List.map_cons, List.map_cons, List.sum_cons, List.sum_cons, ih, givenFactor_idle r]
    · exact ih

theorem levelElastic_idle {spin : ℚ} {w : CoupledWave} {bs zs : List Coupled}
    (h : ∀ a ∈ zs, a.elastic = 0 ∧ a.fissionA = 0 ∧ a.fissionB = 0) (hJ : ∀ a ∈ zs, a.J ∈ bs.map Coupled.J) :
    levelElastic spin E w (bs ++ zs) = levelElastic spin E w bs := by
  unfold levelElastic
  simp only [collisionOf_idle h]
  refine Finset.sum_congr (Finset.ext fun J => ?_) fun _ _ => rfl
  rw [List.mem_toFinset, List.mem_toFinset, List.map_append, List.mem_append]
  refine ⟨fun e => e.elim id fun e => ?_, Or.inl⟩
  obtain ⟨a, ha, rfl⟩ := List.mem_map.mp e
  exact hJ a ha

/-- The formula for a range holds without the resonances that have no neutron and fission widths. -/
theorem isReichMoore_idle {ws : List (CoupledWave × List Coupled)} {m : ReactionID → Option ℝ}
    (hs : LeavesOutIdleCoupled p p') (h : IsReichMoore K neutronMass A E incident target nro naps p ws m) :
    ∃ ws', IsReichMoore K neutronMass A E incident target nro naps p' ws' m := by
  obtain ⟨s1, s2, sn, s3⟩ := id hs
  obtain ⟨ws', v1, v2⟩ := relate_along (P' := fun (lv : ReichMooreLValue) (w : CoupledWave × List Coupled) =>
      if lv.resonances = [] then w.2 = [] else lv.l ≤ 4 ∧ lv.l < p'.nlsc ∧
      ∃ channel scattering, IsRadii (lengthOf p' lv) nro naps (A * neutronMass) channel scattering ∧
      IsLevelWave (neutronWaveNumber (waveConstant K.hbar neutronMass) A) channel scattering E
        lv w.1 w.2) (V := fun w w' => w.1 = w'.1 ∧ ∃ zs, w.2.Perm (w'.2 ++ zs) ∧
          (∀ a ∈ zs, a.elastic = 0 ∧ a.fissionA = 0 ∧ a.fissionB = 0) ∧
          ∀ a ∈ zs, a.J ∈ w'.2.map Coupled.J) s3 h.waves (by
    rintro x z ⟨w, as⟩ hxz hw
    dsimp only at hw ⊢
    by_cases he : x.resonances = []
    · rw [if_pos he] at hw
      refine ⟨⟨w, []⟩, ?_, rfl, [], by rw [hw]; rfl, by simp, by simp⟩
      rw [if_pos (hxz.empty.mp he)]
    · rw [if_neg he] at hw
      obtain ⟨hl, hn, channel, scattering, h1, h2⟩ := hw
      obtain ⟨idle, q1, q2⟩ := hxz.resonances
      obtain ⟨cs, k1, k2, -⟩ := perm_along q1 h2.resonances
      obtain ⟨bs, zs, b1, b2, rfl⟩ := forall₂_split k1
      refine ⟨⟨w, bs⟩, ?_, rfl, zs, k2, fun a ha => ?_, fun a ha => ?_⟩
      · rw [if_neg fun hz => he (hxz.empty.mpr hz)]
        refine ⟨hxz.l ▸ hl, by rw [← hxz.l, ← sn]; exact hn, channel, scattering, ?_, ?_⟩
        · have : lengthOf p' z = lengthOf p x := by
            unfold lengthOf
            rw [hxz.apl, s2]
          rw [this]
          exact h1
        · have hl := hxz.l
          refine ⟨by rw [← hl]; exact h2.l, by rw [← hl]; exact h2.own, by rw [← hl]; exact h2.phase,
            by rw [← hl]; exact b1⟩
      · obtain ⟨r, hr, hra⟩ := forall₂_mem_right b2 ha
        rw [hra.elastic, hra.fissionA, hra.fissionB]
        exact q2 r hr
      · obtain ⟨r, hr, hra⟩ := forall₂_mem_right b2 ha
        obtain ⟨r', hr', e⟩ := hxz.spins r (q1.symm.subset (List.mem_append_right _ hr))
        obtain ⟨b, hb, hrb⟩ := forall₂_mem_left b1 hr'
        exact List.mem_map.mpr ⟨b, hb, by rw [hrb.J, hra.J, e]⟩)
  have sums : ∀ t : CoupledWave × List Coupled → ℝ, (∀ w as bs, as.Perm bs → t (w, as) = t (w, bs)) →
      (∀ w bs zs, (∀ a ∈ zs, a.elastic = 0 ∧ a.fissionA = 0 ∧ a.fissionB = 0) →
        (∀ a ∈ zs, a.J ∈ bs.map Coupled.J) → t (w, bs ++ zs) = t (w, bs)) →
      (ws.map t).sum = (ws'.map t).sum := by
    intro t ht ht'
    refine map_sum_related v2 ?_
    rintro ⟨w, as⟩ ⟨w', bs⟩ ⟨e1, zs, e2, e3, e4⟩
    dsimp only at e1 e2 e3 e4
    subst e1
    rw [ht _ _ _ e2, ht' _ _ _ e3 e4]
  refine ⟨ws', h.finite, v1, ?_, ?_, ?_, h.other⟩
  · rw [h.capture, ← s1]
    exact congrArg _ (congrArg _ (sums (fun w => coupledCapture p.spin E w.1 w.2)
      (fun _ _ _ h => coupledCapture_perm h) fun _ _ _ h _ => (idle_coupled h).2.1))
  · rw [h.fission, ← s1]
    exact congrArg _ (sums (fun w => coupledFission p.spin E w.1 w.2) (fun _ _ _ h => coupledFission_perm h)
      fun _ _ _ h _ => (idle_coupled h).2.2)
  · obtain ⟨φ, a1, a2⟩ := h.elastic
    refine ⟨φ, ?_, ?_⟩
    · intro l hl hne
      rw [← missingFactor_idle hs] at hne
      rw [← s2]
      exact a1 l (sn ▸ hl) hne
    · rw [a2, ← s1, ← sn, sums (fun w => levelElastic p.spin E w.1 w.2) (fun _ _ _ h => levelElastic_perm h)
        fun _ _ _ h h' => levelElastic_idle h h']
      simp only [missingFactor_idle hs]

theorem distinctEnergies_idle (h : LeavesOutIdleCoupled p p') (hd : DistinctEnergies p) :
    DistinctEnergies p' := by
  intro J parity
  have key : ∃ extra, ((p.lValues.filter fun lv => (-1) ^ lv.l = parity).flatMap
        ReichMooreLValue.resonances).Perm
      (((p'.lValues.filter fun lv => (-1) ^ lv.l = parity).flatMap ReichMooreLValue.resonances) ++ extra) := by
    have h1 := h.lValues
    generalize p.lValues = lvs at h1
    generalize p'.lValues = lvs' at h1
    induction h1 with
    | nil => exact ⟨[], .nil⟩
    | cons r _ ih =>
      obtain ⟨extra, ih⟩ := ih
      rw [List.filter_cons, List.filter_cons, r.l]
      split
      · obtain ⟨idle, hp, -⟩ := r.resonances
        refine ⟨idle ++ extra, ?_⟩
        rw [List.flatMap_cons, List.flatMap_cons]
        refine (hp.append ih).trans ?_
        simp only [List.append_assoc]
        refine List.Perm.append_left _ ?_
        rw [← List.append_assoc, ← List.append_assoc]
        exact List.Perm.append_right _ List.perm_append_comm
      · exact ⟨extra, ih⟩
  obtain ⟨extra, hp⟩ := key
  have := (List.Perm.nodup_iff ((hp.filter _).map _)).mp (hd J parity)
  rw [List.filter_append, List.map_append] at this
  exact (List.nodup_append.mp this).1

theorem physicalReichMoore_idle (h : LeavesOutIdleCoupled p p')
    (hp : PhysicalReichMoore neutronMass A nro naps p) : PhysicalReichMoore neutronMass A nro naps p' := by
  refine ⟨hp.mass, hp.positive, ?_, h.spin ▸ hp.spin, ?_, ?_, ?_, h.nlsc ▸ hp.waves, ⟨?_, ?_⟩, ?_, ?_,
    distinctEnergies_idle h hp.different, ?_⟩
  · intro lv hlv
    obtain ⟨x, hx, hxz⟩ := forall₂_mem_right h.lValues hlv
    rw [← hxz.awri]
    exact hp.ratio x hx
  · intro he
    have := h.lValues
    rw [he] at this
    exact hp.some (List.forall₂_nil_right_iff.mp this)
  · have : p'.lValues.map ReichMooreLValue.l = p.lValues.map ReichMooreLValue.l := by
      have h1 := h.lValues
      generalize p.lValues = lvs at h1
      generalize p'.lValues = lvs' at h1
      induction h1 with
      | nil => rfl
      | cons r _ ih => rw [List.map_cons, List.map_cons, ih, r.l]
    rw [this]
    exact hp.distinct
  · intro lv hlv
    obtain ⟨x, hx, hxz⟩ := forall₂_mem_right h.lValues hlv
    rw [← hxz.l]
    exact hp.l x hx
  · intro lv hlv r hrm
    obtain ⟨x, hx, hxz⟩ := forall₂_mem_right h.lValues hlv
    rw [← hxz.l, ← h.nlsc, ← h.spin]
    exact hp.coupled.possible x hx r (hxz.mem r hrm)
  · intro lv hlv r hrm r' hrm'
    obtain ⟨x, hx, hxz⟩ := forall₂_mem_right h.lValues hlv
    rw [← hxz.l, ← h.spin]
    exact hp.coupled.both x hx r (hxz.mem r hrm) r' (hxz.mem r' hrm')
  · intro lv hlv r hrm r' hrm'
    obtain ⟨x, hx, hxz⟩ := forall₂_mem_right h.lValues hlv
    exact hp.fission x hx r (hxz.mem r hrm) r' (hxz.mem r' hrm')
  · intro lv hlv r hrm
    obtain ⟨x, hx, hxz⟩ := forall₂_mem_right h.lValues hlv
    exact hp.energies x hx r (hxz.mem r hrm)
  · intro lv hlv
    obtain ⟨x, hx, hxz⟩ := forall₂_mem_right h.lValues hlv
    obtain ⟨channel, scattering, k1, k2⟩ := hp.radii x hx
    refine ⟨channel, scattering, ?_, fun r hrm => k2 r (hxz.mem r hrm)⟩
    have : lengthOf p' lv = lengthOf p x := by
      unfold lengthOf
      rw [hxz.apl, h.ap]
    rw [this]
    exact k1

/-- C77: resonances without neutron and fission widths may be left out of a Reich-Moore range, as long as each J
of an l value keeps one: the cross sections are the same. -/
theorem C77_reich_moore {m m' : ReactionMap}
    (hR : fromENDF K lib tables reactions initialBreitWigner initial neutronMass elementaryCharge incident
      target range = .ok R)
    (hR' : fromENDF K lib tables reactions initialBreitWigner initial neutronMass elementaryCharge incident
      target { range with parameters := .reichMoore p' } = .ok R')
    (hp : range.parameters = .reichMoore p) (hs : LeavesOutIdleCoupled p p')
    (hn : prescribedRadii range.scatteringRadius.isSome range.naps ≠ none)
    (hI : HalfInt p.spin) (hA : ∀ lv ∈ p.lValues, lv.awri = A)
    (hw : ∀ lv ∈ p.lValues, ∀ r ∈ lv.resonances, 0 ≤ r.neutronWidth ∧ 0 ≤ r.gammaWidth)
    (hd : DistinctEnergies p) (h0 : 0 ≤ E) (hE : range.lower ≤ E ∧ E ≤ range.upper)
    (hm : R.call K lib E = .ok (m, R₁)) (hm' : R'.call K lib E = .ok (m', R₁')) (id : ReactionID ⊕ LegacyID) :
    (m id).getD 0 = (m' id).getD 0 := by
  have hA' : ∀ lv ∈ p'.lValues, lv.awri = A := by
    intro lv hlv
    obtain ⟨x, hx, hxz⟩ := forall₂_mem_right hs.lValues hlv
    rw [← hxz.awri]
    exact hA x hx
  have hw' : ∀ lv ∈ p'.lValues, ∀ r ∈ lv.resonances, 0 ≤ r.neutronWidth ∧ 0 ≤ r.gammaWidth := by
    intro lv hlv r hr
    obtain ⟨x, hx, hxz⟩ := forall₂_mem_right hs.lValues hlv
    exact hw x hx r (hxz.mem r hr)
  obtain ⟨n1, ws, t1, g1, o1⟩ := C69_cross_sections hR hp hn hI hA hw hd h0 hE hm
  obtain ⟨n2, ws', t2, g2, o2⟩ := C69_cross_sections hR' rfl hn (hs.spin ▸ hI) hA' hw'
    (distinctEnergies_idle hs hd) h0 hE hm'
  obtain rfl := rel_unique t1 t2
  obtain ⟨vs, g3⟩ := isReichMoore_idle hs g1
  rcases id with id | id
  · exact isReichMoore_unique g3 g2 id
  · rw [o1, o2]

/-- C77: if the evaluation makes sense physically, it is accepted with and without these resonances. -/
theorem C77_reich_moore_accepted (ht : range.type = 1 ∧ range.representation = 3)
    (hp : range.parameters = .reichMoore p)
    (hr : Option.Rel (IsRadiusTable tables) range.scatteringRadius nro)
    (h : PhysicalReichMoore neutronMass A nro range.naps p) (hs : LeavesOutIdleCoupled p p')
    (hw : ∀ lv ∈ p.lValues, ∀ r ∈ lv.resonances, 0 ≤ r.neutronWidth ∧ 0 ≤ r.gammaWidth) :
    ∃ R R', fromENDF K lib tables reactions initialBreitWigner initial neutronMass elementaryCharge incident
        target range = .ok R ∧
      fromENDF K lib tables reactions initialBreitWigner initial neutronMass elementaryCharge incident
        target { range with parameters := .reichMoore p' } = .ok R' ∧
      ∀ E, 0 < E → range.lower ≤ E ∧ E ≤ range.upper → RadiiAt neutronMass A nro range.naps p.ap E →
        (∀ lv ∈ p.lValues, RadiiAt neutronMass A nro range.naps (lengthOf p lv) E) →
        (∀ lv ∈ p.lValues, ∀ r ∈ lv.resonances, r.energy = E → r.gammaWidth ≠ 0) →
        ∃ m m' R₁ R₁', R.call K lib E = .ok (m, R₁) ∧ R'.call K lib E = .ok (m', R₁') ∧
          ∀ id, (m id).getD 0 = (m' id).getD 0 := by
  obtain ⟨R, h1, h2⟩ := C69_accepted (K := K) (lib := lib) (reactions := reactions)
    (initialBreitWigner := initialBreitWigner) (initial := initial) (elementaryCharge := elementaryCharge)
    (incident := incident) (target := target) ht hp hr h
  obtain ⟨R', h3, h4⟩ := C69_accepted (K := K) (lib := lib) (reactions := reactions)
    (initialBreitWigner := initialBreitWigner) (initial := initial) (elementaryCharge := elementaryCharge)
    (incident := incident) (target := target) (p := p')
    (range := { range with parameters := .reichMoore p' }) ht rfl hr (physicalReichMoore_idle hs h)
  refine ⟨R, R', h1, h3, fun E h0 hE hap hlv hpole => ?_⟩
  obtain ⟨⟨m, R₁⟩, h5⟩ := h2 E h0.ne' hap hlv hpole
  obtain ⟨⟨m', R₁'⟩, h6⟩ := h4 E h0.ne' (hs.ap ▸ hap) (fun lv hl => by
      obtain ⟨x, hx, hxz⟩ := forall₂_mem_right hs.lValues hl
      have : lengthOf p' lv = lengthOf p x := by
        unfold lengthOf
        rw [hxz.apl, hs.ap]
      rw [this]
      exact hlv x hx) fun lv hl r hr => by
      obtain ⟨x, hx, hxz⟩ := forall₂_mem_right hs.lValues hl
      exact hpole x hx r (hxz.mem r hr)
  refine ⟨m, m', R₁, R₁', h5, h6, C77_reich_moore h1 h3 hp hs ?_ h.spin h.ratio hw h.different h0.le hE h5 h6⟩
  obtain ⟨lv, rest, hl⟩ := List.exists_cons_of_ne_nil h.some
  obtain ⟨channel, scattering, ⟨a, b, hab, -⟩, -⟩ := h.radii lv (by rw [hl]; simp)
  rw [rel_isSome hr, hab]
  simp

namespace Example

/-- Two s-wave resonances, the one at energy 3/2 has no neutron and fission widths. -/
noncomputable def idle : ReichMoore :=
  ⟨1 / 2, 1 / 2, 2, [⟨0, 10, 0, [⟨3 / 2, 0, 0, 1, 0, 0⟩, ⟨1, 0, 1 / 5, 1, 0, 0⟩]⟩]⟩

/-- The same without the resonance at energy 3/2. -/
noncomputable def busy : ReichMoore := ⟨1 / 2, 1 / 2, 2, [⟨0, 10, 0, [⟨1, 0, 1 / 5, 1, 0, 0⟩]⟩]⟩

theorem idle_spin {lv : ReichMooreLValue} (hlv : lv ∈ idle.lValues) {r : ReichMooreResonance}
    (hr : r ∈ lv.resonances) : lv.l = 0 ∧ r.spin = 0 ∧ r.energy ≠ 0 := by
  simp only [idle, List.mem_singleton] at hlv
  subst hlv
  simp only [List.mem_cons, List.not_mem_nil, or_false] at hr
  rcases hr with rfl | rfl <;> norm_num

theorem idle_physical : PhysicalReichMoore 1 10 none 1 idle := by
  refine ⟨one_pos, by norm_num, by simp [idle], ⟨1, by norm_num [idle]⟩, by simp [idle],
    by simp [idle], by simp [idle], by simp [idle], ⟨?_, ?_⟩, ?_, fun lv hlv r hr => (idle_spin hlv hr).2.2, ?_, ?_⟩
  · intro lv hlv r hr
    obtain ⟨e1, e2, -⟩ := idle_spin hlv hr
    rw [e1, e2]
    exact ⟨by norm_num [idle], 0, ⟨by norm_num [idle], by norm_num [idle], 1,
      by norm_num [idle]⟩, by norm_num, by norm_num, 0, by norm_num⟩
  · intro lv hlv r hr r' hr' h0
    exact absurd (idle_spin hlv hr).2.1 h0
  · intro lv hlv r hr r' hr' h0
    exact absurd (idle_spin hlv hr).2.1 h0
  · intro J parity
    refine List.Nodup.sublist ((List.filter_sublist).map _) ?_
    by_cases h1 : (1 : ℤ) = parity
    · subst h1
      norm_num [idle, List.filter_cons, List.flatMap_cons]
    · simp [idle, h1]
  · intro lv hlv
    refine ⟨_, _, radii _ _, fun r hr => ⟨lengthOf idle lv, ?_, rfl⟩⟩
    simp only [idle, List.mem_singleton] at hlv
    subst hlv
    norm_num [lengthOf, idle]

theorem idle_leftOut : LeavesOutIdleCoupled idle busy :=
  ⟨rfl, rfl, rfl, .cons ⟨rfl, rfl, rfl, ⟨[⟨3 / 2, 0, 0, 1, 0, 0⟩], List.Perm.swap _ _ _, by simp⟩, by simp⟩ .nil⟩

/-- C77 applies to these ranges, at the energy of the resonance that is left out. -/
example (K : Constants) (lib : CoulombLibrary) (tables : InterpolationLibrary) (reactions : ReactionLibrary)
    (initialBreitWigner : Channel → Verif.BreitWigner.Cache)
    (initial : (g : SpinGroup) → MatrixCache g.channels.length) (elementaryCharge : ℝ) (incident target : Str) :
    ∃ R R' m m' R₁ R₁', fromENDF K lib tables reactions initialBreitWigner initial 1 elementaryCharge incident
        target ⟨1 / 2, 2, 1, 3, 1, none, .reichMoore idle⟩ = .ok R ∧
      fromENDF K lib tables reactions initialBreitWigner initial 1 elementaryCharge incident
        target ⟨1 / 2, 2, 1, 3, 1, none, .reichMoore busy⟩ = .ok R' ∧
      R.call K lib (3 / 2) = .ok (m, R₁) ∧ R'.call K lib (3 / 2) = .ok (m', R₁') ∧
      ∀ id, (m id).getD 0 = (m' id).getD 0 := by
  obtain ⟨R, R', h1, h2, h3⟩ := C77_reich_moore_accepted (K := K) (lib := lib) (tables := tables)
    (reactions := reactions) (initialBreitWigner := initialBreitWigner) (initial := initial)
    (elementaryCharge := elementaryCharge) (incident := incident) (target := target) (nro := none)
    (neutronMass := 1) (A := 10) (range := ⟨1 / 2, 2, 1, 3, 1, none, .reichMoore idle⟩) ⟨rfl, rfl⟩ rfl .none
    idle_physical idle_leftOut (by norm_num [idle])
  obtain ⟨m, m', R₁, R₁', h4, h5, h6⟩ := h3 (3 / 2) (by norm_num) (by norm_num)
    (radiiAt (by norm_num [idle]) _ _) (by
      intro lv hlv
      refine radiiAt ?_ _ _
      simp only [idle, List.mem_singleton] at hlv
      subst hlv
      norm_num [lengthOf, idle]) (by norm_num [idle])
  exact ⟨R, R', m, m', R₁, R₁', h1, h2, h4, h5, h6⟩

end Example

end Verif.Endf
