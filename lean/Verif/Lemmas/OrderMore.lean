import Verif.Lemmas.Order

/-!
# Lemmas on Reich-Moore and unresolved ranges in another order
-/

namespace Verif.Endf

open Spec Complex

variable {K : Constants} {lib : CoulombLibrary} {neutronMass A E : ℝ} {incident target : Str}
  {nro : Option (ℝ → Outcome ℝ)} {naps : ℤ}

/-! ## Reich-Moore ranges -/

section

variable {p p' : ReichMoore} {ws ws' : List (CoupledWave × List Coupled)} {m m' : ReactionID → Option ℝ}

theorem collisionOf_perm {w : CoupledWave} {as bs : List Coupled} (h : as.Perm bs) :
    collisionOf E w as = collisionOf E w bs := by
  funext J
  unfold collisionOf reichMooreCollision
  congr 5
  ext i j
  unfold reichMooreK
  simp only [Matrix.of_apply]
  exact ((((h.filter _).map _).map _).sum_eq)

theorem levelElastic_perm {spin : ℚ} {w : CoupledWave} {as bs : List Coupled} (h : as.Perm bs) :
    levelElastic spin E w as = levelElastic spin E w bs := by
  unfold levelElastic
  rw [collisionOf_perm h, toFinset_perm (h.map _)]

theorem coupledCapture_perm {spin : ℚ} {w : CoupledWave} {as bs : List Coupled} (h : as.Perm bs) :
    coupledCapture spin E w as = coupledCapture spin E w bs := by
  unfold coupledCapture
  rw [collisionOf_perm h, toFinset_perm (h.map _)]

theorem coupledFission_perm {spin : ℚ} {w : CoupledWave} {as bs : List Coupled} (h : as.Perm bs) :
    coupledFission spin E w as = coupledFission spin E w bs := by
  unfold coupledFission
  rw [collisionOf_perm h, toFinset_perm (h.map _)]

theorem givenFactor_same {spin : ℚ} {lv lv' : ReichMooreLValue} (h : SameCoupled lv lv') :
    givenFactor spin lv = givenFactor spin lv' := by
  unfold givenFactor
  rw [toFinset_perm (h.resonances.map _)]

theorem missingFactor_same (h : SameReichMoore p p') (l : ℕ) : missingFactor p l = missingFactor p' l := by
  unfold missingFactor
  congr 1
  rw [← h.spin]
  obtain ⟨zs, h1, h2⟩ := h.lValues
  rw [← ((h2.filter fun lv => lv.l = l).map (givenFactor p.spin)).sum_eq]
  congr 1
  clear h2
  generalize p.lValues = lvs at h1
  induction h1 with
  | nil => rfl
  | cons r _ ih =>
    rw [List.filter_cons, List.filter_cons, r.l]
    split
    · rw [List.map_cons, List.map_cons, ih, givenFactor_same r]
    · exact ih

/-- The formula for a range holds for every order in which it may be given. -/
theorem isReichMoore_relisted (hs : SameReichMoore p p')
    (h : IsReichMoore K neutronMass A E incident target nro naps p ws m) :
    ∃ ws', IsReichMoore K neutronMass A E incident target nro naps p' ws' m := by
  obtain ⟨s1, s2, sn, zs, s3, s4⟩ := id hs
  obtain ⟨vs, v1, v2⟩ := relate_along (P' := fun (lv : ReichMooreLValue) (w : CoupledWave × List Coupled) =>
      if lv.resonances = [] then w.2 = [] else lv.l ≤ 4 ∧ lv.l < p'.nlsc ∧
      ∃ channel scattering, IsRadii (lengthOf p' lv) nro naps (A * neutronMass) channel scattering ∧
      IsLevelWave (neutronWaveNumber (waveConstant K.hbar neutronMass) A) channel scattering E
        lv w.1 w.2) (V := fun w w' => w.1 = w'.1 ∧ w.2.Perm w'.2) s3 h.waves (by
    rintro x z ⟨w, as⟩ hxz hw
    dsimp only at hw ⊢
    by_cases he : x.resonances = []
    · rw [if_pos he] at hw
      refine ⟨⟨w, []⟩, ?_, rfl, by rw [hw]⟩
      rw [if_pos (List.perm_nil.mp (he ▸ hxz.resonances.symm))]
    · rw [if_neg he] at hw
      obtain ⟨hl, hn, channel, scattering, h1, h2⟩ := hw
      obtain ⟨bs, k1, k2, -⟩ := perm_along hxz.resonances h2.resonances
      refine ⟨⟨w, bs⟩, ?_, rfl, k2⟩
      rw [if_neg fun hz : z.resonances = [] => he (List.perm_nil.mp (hz ▸ hxz.resonances))]
      refine ⟨hxz.l ▸ hl, by rw [← hxz.l, ← sn]; exact hn, channel, scattering, ?_, ?_⟩
      · have : lengthOf p' z = lengthOf p x := by
          unfold lengthOf
          rw [hxz.apl, s2]
        rw [this]
        exact h1
      · have hl := hxz.l
        refine ⟨by rw [← hl]; exact h2.l, by rw [← hl]; exact h2.own, by rw [← hl]; exact h2.phase,
          by rw [← hl]; exact k1⟩)
  obtain ⟨ws', w1, w2, -⟩ := perm_along s4 v1
  have sums : ∀ t : CoupledWave × List Coupled → ℝ, (∀ w as bs, as.Perm bs → t (w, as) = t (w, bs)) →
      (ws.map t).sum = (ws'.map t).sum := by
    intro t ht
    rw [← (w2.map t).sum_eq]
    refine map_sum_related v2 ?_
    rintro ⟨w, as⟩ ⟨w', bs⟩ ⟨e1, e2⟩
    dsimp only at e1 e2
    subst e1
    exact ht _ _ _ e2
  refine ⟨ws', h.finite, w1, ?_, ?_, ?_, h.other⟩
  · rw [h.capture, ← s1]
    exact congrArg _ (congrArg _ (sums (fun w => coupledCapture p.spin E w.1 w.2)
      fun _ _ _ h => coupledCapture_perm h))
  · rw [h.fission, ← s1]
    exact congrArg _ (sums (fun w => coupledFission p.spin E w.1 w.2) fun _ _ _ h => coupledFission_perm h)
  · obtain ⟨φ, a1, a2⟩ := h.elastic
    refine ⟨φ, ?_, ?_⟩
    · intro l hl hne
      rw [← missingFactor_same hs] at hne
      rw [← s2]
      exact a1 l (sn ▸ hl) hne
    · rw [a2, ← s1, ← sn, sums (fun w => levelElastic p.spin E w.1 w.2) fun _ _ _ h => levelElastic_perm h]
      simp only [missingFactor_same hs]

/-- The formula determines the cross sections. -/
theorem isReichMoore_unique (h : IsReichMoore K neutronMass A E incident target nro naps p ws m)
    (h' : IsReichMoore K neutronMass A E incident target nro naps p ws' m') (id : ReactionID) :
    (m id).getD 0 = (m' id).getD 0 := by
  have key : ∀ (lv : ReichMooreLValue) (w w' : CoupledWave × List Coupled),
      (if lv.resonances = [] then w.2 = [] else lv.l ≤ 4 ∧ lv.l < p.nlsc ∧
        ∃ channel scattering, IsRadii (lengthOf p lv) nro naps (A * neutronMass) channel scattering ∧
          IsLevelWave (neutronWaveNumber (waveConstant K.hbar neutronMass) A) channel scattering E
            lv w.1 w.2) →
      (if lv.resonances = [] then w'.2 = [] else lv.l ≤ 4 ∧ lv.l < p.nlsc ∧
        ∃ channel scattering, IsRadii (lengthOf p lv) nro naps (A * neutronMass) channel scattering ∧
          IsLevelWave (neutronWaveNumber (waveConstant K.hbar neutronMass) A) channel scattering E
            lv w'.1 w'.2) →
      coupledCapture p.spin E w.1 w.2 = coupledCapture p.spin E w'.1 w'.2 ∧
      coupledFission p.spin E w.1 w.2 = coupledFission p.spin E w'.1 w'.2 ∧
      levelElastic p.spin E w.1 w.2 = levelElastic p.spin E w'.1 w'.2 := by
    intro lv w w' hw hw'
    by_cases hne : lv.resonances = []
    · rw [if_pos hne] at hw hw'
      rw [hw, hw']
      simp [coupledCapture, coupledFission, levelElastic]
    · rw [if_neg hne] at hw hw'
      obtain ⟨-, -, channel, scattering, q1, q2⟩ := hw
      obtain ⟨-, -, channel', scattering', q3, q4⟩ := hw'
      obtain ⟨e1, -, e3, e4⟩ := wave_unique (fun e => (isRadii_unique (e := e) q1 q3).1)
        (fun e => (isRadii_unique (e := e) q1 q3).2) q2 q4
      unfold coupledCapture coupledFission levelElastic
      rw [e1, collision_unique e3 e4]
      exact ⟨rfl, rfl, rfl⟩
  by_cases h1 : id = .elastic (pairID incident target)
  · subst h1
    obtain ⟨φ, a1, a2⟩ := h.elastic
    obtain ⟨φ', b1, b2⟩ := h'.elastic
    rw [a2, b2]
    refine congrArg (fun x => (some x).getD 0) (congrArg _ (congrArg₂ _ ?_ ?_))
    · exact map_sum_unique h.waves h'.waves fun lv w w' k k' => (key lv w w' k k').2.2
    · refine Finset.sum_congr rfl fun l hl => ?_
      by_cases hz : missingFactor p l = 0
      · rw [hz, zero_mul, zero_mul]
      · obtain ⟨-, c, s, r, k1, k2, k3⟩ := a1 l (Finset.mem_range.mp hl) hz
        obtain ⟨-, c', s', r', k4, k5, k6⟩ := b1 l (Finset.mem_range.mp hl) hz
        have := (isRadii_unique (e := E) k1 k4).2
        rw [k2, k5] at this
        obtain rfl := Except.ok.inj this
        rw [sin_sq_eq_of_exp (k3.trans k6.symm)]
  by_cases h2 : id = .transition (pairID incident target) "capture".toList
  · subst h2
    rw [h.capture, h'.capture]
    refine congrArg (fun x => (some x).getD 0) (congrArg _ ?_)
    exact map_sum_unique h.waves h'.waves fun lv w w' k k' => (key lv w w' k k').1
  by_cases h3 : id = .transition (pairID incident target) "fission".toList
  · subst h3
    rw [h.fission, h'.fission]
    refine congrArg _ ?_
    exact map_sum_unique h.waves h'.waves fun lv w w' k k' => (key lv w w' k k').2.1
  · rw [h.other id h1 h2 h3, h'.other id h1 h2 h3]

theorem distinctEnergies_same (h : SameReichMoore p p') (hd : DistinctEnergies p) : DistinctEnergies p' := by
  intro J parity
  refine (List.Perm.nodup_iff ?_).mp (hd J parity)
  refine ((List.Perm.filter _ ?_).map _)
  obtain ⟨zs, h1, h2⟩ := h.lValues
  refine List.Perm.trans ?_ ((h2.filter _).flatMap_right _)
  clear h2
  generalize p.lValues = lvs at h1
  induction h1 with
  | nil => exact .nil
  | cons r _ ih =>
    rw [List.filter_cons, List.filter_cons, r.l]
    split
    · rw [List.flatMap_cons, List.flatMap_cons]
      exact r.resonances.append ih
    · exact ih

theorem physicalReichMoore_same (h : SameReichMoore p p') (hp : PhysicalReichMoore neutronMass A nro naps p) :
    PhysicalReichMoore neutronMass A nro naps p' := by
  have hr : ∀ {x z : ReichMooreLValue}, SameCoupled x z → ∀ r ∈ z.resonances, r ∈ x.resonances :=
    fun hxz r hr => hxz.resonances.mem_iff.mpr hr
  refine ⟨hp.mass, hp.positive, ?_, h.spin ▸ hp.spin, ?_, ?_, ?_, h.nlsc ▸ hp.waves, ⟨?_, ?_⟩, ?_, ?_,
    distinctEnergies_same h hp.different, ?_⟩
  · intro lv hlv
    obtain ⟨x, hx, hxz⟩ := Relisted.mem h.lValues hlv
    rw [← hxz.awri]
    exact hp.ratio x hx
  · intro he
    have := Relisted.length_eq h.lValues
    rw [he, List.length_nil, List.length_eq_zero_iff] at this
    exact hp.some this
  · exact (List.Perm.nodup_iff (Relisted.map_perm h.lValues fun x y hxy => hxy.l)).mp hp.distinct
  · intro lv hlv
    obtain ⟨x, hx, hxz⟩ := Relisted.mem h.lValues hlv
    rw [← hxz.l]
    exact hp.l x hx
  · intro lv hlv r hrm
    obtain ⟨x, hx, hxz⟩ := Relisted.mem h.lValues hlv
    rw [← hxz.l, ← h.nlsc, ← h.spin]
    exact hp.coupled.possible x hx r (hr hxz r hrm)
  · intro lv hlv r hrm r' hrm'
    obtain ⟨x, hx, hxz⟩ := Relisted.mem h.lValues hlv
    rw [← hxz.l, ← h.spin]
    exact hp.coupled.both x hx r (hr hxz r hrm) r' (hr hxz r' hrm')
  · intro lv hlv r hrm r' hrm'
    obtain ⟨x, hx, hxz⟩ := Relisted.mem h.lValues hlv
    exact hp.fission x hx r (hr hxz r hrm) r' (hr hxz r' hrm')
  · intro lv hlv r hrm
    obtain ⟨x, hx, hxz⟩ := Relisted.mem h.lValues hlv
    exact hp.energies x hx r (hr hxz r hrm)
  · intro lv hlv
    obtain ⟨x, hx, hxz⟩ := Relisted.mem h.lValues hlv
    obtain ⟨channel, scattering, k1, k2⟩ := hp.radii x hx
    refine ⟨channel, scattering, ?_, fun r hrm => k2 r (hr hxz r hrm)⟩
    have : lengthOf p' lv = lengthOf p x := by
      unfold lengthOf
      rw [hxz.apl, h.ap]
    rw [this]
    exact k1

end

/-! ## Breit-Wigner ranges -/

theorem physicalBreitWigner_same {p p' : BreitWigner} (h : SameBreitWigner p p')
    (hp : PhysicalBreitWigner neutronMass nro naps p) : PhysicalBreitWigner neutronMass nro naps p' := by
  have hr : ∀ {x z : BreitWignerLValue}, SameResolved x z → ∀ r ∈ z.resonances, r ∈ x.resonances :=
    fun hxz r hr => hxz.resonances.mem_iff.mpr hr
  refine ⟨hp.mass, h.spin ▸ hp.spin, ?_, ?_, ?_, ?_, ?_, ?_, ?_, ?_⟩
  · obtain ⟨x, hx, hne⟩ := hp.some
    obtain ⟨z, hz, hxz⟩ := Relisted.mem_left h.lValues hx
    exact ⟨z, hz, fun e => hne (List.perm_nil.mp (e ▸ hxz.resonances))⟩
  · exact (List.Perm.nodup_iff (Relisted.map_perm h.lValues fun x y hxy => hxy.l)).mp hp.distinct
  · intro lv hlv
    obtain ⟨x, hx, hxz⟩ := Relisted.mem h.lValues hlv
    rw [← hxz.awri]
    exact hp.awri x hx
  · intro lv hlv hne
    obtain ⟨x, hx, hxz⟩ := Relisted.mem h.lValues hlv
    rw [← hxz.l, ← Relisted.length_eq h.lValues]
    exact hp.l x hx fun e => hne (List.perm_nil.mp (e ▸ hxz.resonances.symm))
  · intro lv hlv r hrm
    obtain ⟨x, hx, hxz⟩ := Relisted.mem h.lValues hlv
    rw [← hxz.l, ← h.spin]
    exact hp.spins x hx r (hr hxz r hrm)
  · intro lv hlv r hrm r' hrm'
    obtain ⟨x, hx, hxz⟩ := Relisted.mem h.lValues hlv
    exact hp.signs x hx r (hr hxz r hrm) r' (hr hxz r' hrm')
  · intro lv hlv r hrm
    obtain ⟨x, hx, hxz⟩ := Relisted.mem h.lValues hlv
    exact hp.widths x hx r (hr hxz r hrm)
  · intro lv hlv
    obtain ⟨x, hx, hxz⟩ := Relisted.mem h.lValues hlv
    rw [← hxz.awri, ← hxz.lrx, ← hxz.qx, ← h.ap]
    obtain ⟨channel, scattering, k1, k2⟩ := hp.radii x hx
    exact ⟨channel, scattering, k1, fun r hrm => k2 r (hr hxz r hrm)⟩

theorem hasRadii_same {p p' : BreitWigner} (h : SameBreitWigner p p')
    (hp : HasRadii neutronMass nro naps p E) : HasRadii neutronMass nro naps p' E := by
  intro lv hlv
  obtain ⟨x, hx, hxz⟩ := Relisted.mem h.lValues hlv
  rw [← hxz.awri, ← hxz.qx, ← h.ap]
  exact hp x hx

/-! ## Unresolved ranges -/

/-- The same average parameters in another order. -/
structure SameParameters (d d' : AverageParameters) : Prop where
  spin : d.spin = d'.spin
  ap : d.ap = d'.ap
  awri : d.awri.Perm d'.awri
  groups : d.groups.Perm d'.groups

theorem relisted_groups {J : Type} {lvs lvs' : List (UnresolvedLValue J)} (h : Relisted SameAverage lvs lvs')
    (f : ℕ → J → AverageGroup) : (lvs.flatMap fun lv => lv.jValues.map (f lv.l)).Perm
      (lvs'.flatMap fun lv => lv.jValues.map (f lv.l)) := by
  obtain ⟨zs, h1, h2⟩ := h
  refine List.Perm.trans ?_ (h2.flatMap_right _)
  clear h2
  induction h1 with
  | nil => exact .nil
  | cons r _ ih =>
    rw [List.flatMap_cons, List.flatMap_cons, r.l]
    exact (r.jValues.map _).append ih

theorem averageParameters_same {lower upper : ℝ} {q q' : Endf.Parameters} (h : SameUnresolvedParameters q q')
    {d : AverageParameters} (hd : averageParameters lower upper q = some d) :
    ∃ d', averageParameters lower upper q' = some d' ∧ SameParameters d d' := by
  cases h with
  | constant h =>
    cases hd
    refine ⟨_, rfl, h.spin, h.ap, Relisted.map_perm h.lValues fun _ _ h => h.awri, ?_⟩
    exact relisted_groups h.lValues fun l (j : UnresolvedConstantJ) => ⟨l, j.spin,
      [⟨lower, j.spacing, j.neutronWidth, j.gammaWidth, j.fissionWidth, j.competitiveWidth⟩,
        ⟨upper, j.spacing, j.neutronWidth, j.gammaWidth, j.fissionWidth, j.competitiveWidth⟩], j.degrees⟩
  | @fission p p' h =>
    cases hd
    refine ⟨_, rfl, h.spin, h.ap, Relisted.map_perm h.lValues fun _ _ h => h.awri, ?_⟩
    simp only [← h.energies]
    exact relisted_groups h.lValues fun l (j : UnresolvedFissionJ) => ⟨l, j.spin,
      (p.energies.zip j.fissionWidths).map fun row =>
        ⟨row.1, j.spacing, j.neutronWidth, j.gammaWidth, row.2, j.competitiveWidth⟩, j.degrees⟩
  | dependent h =>
    cases hd
    refine ⟨_, rfl, h.spin, h.ap, Relisted.map_perm h.lValues fun _ _ h => h.awri, ?_⟩
    exact relisted_groups h.lValues fun l (j : UnresolvedDependentJ) => ⟨l, j.spin, j.rows, j.degrees⟩

theorem physicalAverages_same {d d' : AverageParameters} (h : SameParameters d d')
    (hp : PhysicalAverages neutronMass A d) : PhysicalAverages neutronMass A d' := by
  have hg : ∀ g ∈ d'.groups, g ∈ d.groups := fun g hg => h.groups.mem_iff.mpr hg
  refine ⟨hp.mass, ⟨hp.awri.1, fun a ha => hp.awri.2 a (h.awri.mem_iff.mpr ha)⟩, ?_, ?_,
    fun g k => hp.l g (hg g k), fun g k => hp.degrees g (hg g k), fun g k => hp.rows g (hg g k),
    fun g k => hp.widths g (hg g k)⟩
  · intro e
    have := h.groups
    rw [e] at this
    exact hp.some (List.perm_nil.mp this)
  · exact (h.groups.map _).nodup_iff.mp hp.distinct

end Verif.Endf
