import Verif.Props.Generations
import Verif.Props.BreitWignerAccepted
import Verif.Props.GridPoints
import Verif.Props.SpinGroupMore
import Verif.Lemmas.OldReichMoore

/-!
# Property C104: potential scattering
-/

namespace Verif.Spec

open Complex

/-- The cross section of a hard sphere with `ρ = k a`, for all angular momenta below `n`. -/
noncomputable def hardSphereScattering (k ρ : ℝ) (n : ℕ) : ℝ :=
  Real.pi / k ^ 2 * ∑ l ∈ Finset.range n, (2 * (l : ℝ) + 1) * normSq (1 - hardSpherePhase ρ l)

end Verif.Spec

namespace Verif

open Complex Matrix

/-! ## Spin groups -/

theorem tMatrix_uncoupled {option : BoundaryOption} {channels : List Channel} {rs : List Resonance} {E : ℝ}
    {P S : Fin channels.length → ℝ} (hdet : (Spec.levelDenominator option channels rs E P S).det ≠ 0)
    {c : Fin channels.length} (hc : ∀ r ∈ rs, channels[c].belowThreshold E ∨ r.width c = 0)
    (c' : Fin channels.length) : Spec.tMatrix option channels rs E P S c c' = 0 := by
  have hrow : ∀ j, Spec.rMatrix channels rs E c j = 0 := by
    intro j
    simp only [Spec.rMatrix, Matrix.of_apply]
    apply List.sum_eq_zero
    intro x hx
    obtain ⟨r, hr, rfl⟩ := List.mem_map.mp hx
    have : Spec.amplitude channels E r c = 0 := by
      unfold Spec.amplitude
      split
      · rfl
      · exact (hc r hr).resolve_left (by assumption)
    simp [this]
  set M := Spec.levelDenominator option channels rs E P S with hM
  set X := M⁻¹ * Spec.rMatrix channels rs E with hX
  have h1 : M * X = Spec.rMatrix channels rs E := by
    rw [hX, ← Matrix.mul_assoc, Matrix.mul_nonsing_inv _ (isUnit_iff_ne_zero.mpr hdet), Matrix.one_mul]
  have h2 := congrFun (congrFun h1 c) c'
  rw [hM, Spec.levelDenominator, Matrix.sub_mul, Matrix.one_mul, Matrix.sub_apply, hrow, Matrix.mul_assoc,
    Matrix.mul_apply] at h2
  simp only [hrow, zero_mul, Finset.sum_const_zero, sub_zero] at h2
  simp only [Spec.tMatrix, Matrix.of_apply]
  rw [← hM, ← hX, h2, mul_zero, zero_mul]

/-- C104, spin groups: if no resonance has a width in the incident channels that are open, a spin group adds to
the elastic cross section the potential scattering `π/k² g |1 - exp(i (w - 2φ))|²` of its incident channels, and
nothing to the other reactions. -/
theorem C104_spin_group {option : BoundaryOption} {K : Constants} {lib : CoulombLibrary} {g : SpinGroup} {E : ℝ}
    {cache cache' : MatrixCache g.channels.length} {start m : CrossSectionMap} (hg : g.Built)
    (h : g.evaluate option K lib E cache start = .ok (m, cache'))
    (hz : ∀ r ∈ g.table.resonances, ∀ c : Fin g.channels.length, g.channels[c].isIncident →
      g.channels[c].belowThreshold E ∨ r.width c = 0) :
    ∃ w phi : Fin g.channels.length → ℝ,
      (∀ i : Fin g.channels.length, g.channels[i].coulombPhaseShift K E = .ok (w i) ∧
        g.channels[i].phaseShift K lib E = .ok (phi i)) ∧
      ∀ id, (m id).getD 0 = (start id).getD 0 + ∑ c : Fin g.channels.length,
        if g.channels[c].isIncident ∧ g.channels[c].reaction = id then
          Spec.incidentFactor K g.channels E * normSq (1 - exp (I * (w c - 2 * phi c))) else 0 := by
  obtain ⟨P, S, w, phi, hev, hres⟩ := evaluate_ok hg h
  refine ⟨w, phi, fun i => ⟨hev.coulomb i, hev.phase i⟩, fun id => ?_⟩
  have hU : ∀ c c' : Fin g.channels.length, g.channels[c].isIncident →
      Spec.collision (Spec.tMatrix option g.channels g.table.resonances E P S) w phi c c'
        = if c = c' then exp (I * w c) * exp (I * (w c - 2 * phi c)) else 0 := by
    intro c c' hc
    unfold Spec.collision
    rw [tMatrix_uncoupled hev.invertible fun r hr => hz r hr c hc]
    by_cases hcc : c = c'
    · subst hcc
      rw [if_pos rfl, if_pos rfl, mul_zero, add_zero, mul_one, ← Complex.exp_add, ← Complex.exp_add]
      congr 1
      ring
    · simp [hcc]
  have hexp : ∀ x : ℝ, normSq (exp (I * x)) = 1 := fun x => normSq_exp_I_mul x
  have hexp' : ∀ c, normSq (exp (I * (w c - 2 * phi c))) = 1 := fun c => by
    have := hexp (w c - 2 * phi c)
    push_cast at this
    exact this
  have hsum : Spec.contribution option K g.channels g.table.resonances E P S w phi id
      = ∑ c : Fin g.channels.length, if g.channels[c].isIncident ∧ g.channels[c].reaction = id then
          Spec.incidentFactor K g.channels E * normSq (1 - exp (I * (w c - 2 * phi c))) else 0 := by
    unfold Spec.contribution
    refine Finset.sum_congr rfl fun c _ => ?_
    by_cases hc : g.channels[c].isIncident
    · have hcap : Spec.captureCrossSection (Spec.collision
          (Spec.tMatrix option g.channels g.table.resonances E P S) w phi) c = 0 := by
        unfold Spec.captureCrossSection
        rw [Finset.sum_eq_single c, hU c c hc, if_pos rfl, normSq_mul, hexp, hexp', one_mul, sub_self]
        · intro c' _ hne
          rw [hU c c' hc, if_neg (Ne.symm hne), normSq_zero]
        · exact fun h => absurd (Finset.mem_univ c) h
      rw [if_pos hc, hcap, mul_zero, ite_self, add_zero, Finset.sum_eq_single c]
      · by_cases hid : g.channels[c].reaction = id
        · rw [if_pos hid, if_pos ⟨hc, hid⟩]
          unfold Spec.partialCrossSection
          rw [if_pos rfl, hU c c hc, if_pos rfl, ← mul_one_sub, normSq_mul, hexp, one_mul]
        · rw [if_neg hid, if_neg fun h => hid h.2]
      · intro c' _ hne
        unfold Spec.partialCrossSection
        rw [hU c c' hc, if_neg (Ne.symm hne), if_neg (Ne.symm hne)]
        simp
      · exact fun h => absurd (Finset.mem_univ c) h
    · rw [if_neg hc, if_neg fun h => hc h.1]
  rw [hres]
  split
  · rw [Option.getD_some, hsum]
  · rename_i hid
    rw [Finset.sum_eq_zero, add_zero]
    intro c _
    rw [if_neg]
    rintro ⟨-, rfl⟩
    obtain ⟨-, first, rest, h2, h3, -⟩ := hg.incident
    exact hid (by rw [h3]; exact List.mem_append_left _ (List.mem_map_of_mem (List.getElem_mem _)))

namespace Example

/-- The example group with a resonance that has no neutron width. -/
noncomputable def uncoupled : SpinGroup := ⟨channels, channels.map Channel.reaction ++
  [.transition pair.id "capture".toList], determineIncidentChannels channels,
  ⟨channels.map Channel.id, [⟨1, [0, 1 / 3, 1 / 5], 1 / 10⟩]⟩⟩

theorem uncoupled_built : uncoupled.Built := by
  have hc : Spec.ConsistentGroup channels ⟨channels.map Channel.id, [⟨1, [0, 1 / 3, 1 / 5], 1 / 10⟩]⟩ :=
    ⟨consistent.1, consistent.2, consistent.3, consistent.4, consistent.5, rfl⟩
  obtain ⟨g, hg⟩ := (C24_accepted _ _).mpr hc
  obtain ⟨h1, h2, -⟩ := C24_contents hg
  obtain ⟨h3, first, rest, h4, h5, -⟩ := (SpinGroup.Built.of_make hg).1.incident
  have : g = uncoupled := by
    obtain ⟨c, r, i, t⟩ := g
    simp only at h1 h2 h3 h4 h5
    subst h1 h2 h3 h5
    have : first = elastic := by
      have := congrArg List.head? h4
      simp only [channels, List.head?_cons, Option.some.injEq] at this
      exact this.symm
    subst this
    rfl
  rw [← this]
  exact (SpinGroup.Built.of_make hg).1

/-- C104 applies to it: fission adds nothing. -/
example (option : BoundaryOption) (lib : CoulombLibrary) (cache : MatrixCache uncoupled.channels.length) :
    ∃ m c, uncoupled.evaluate option constants lib 2 cache (fun _ => none) = .ok (m, c) ∧
      (m fission.reaction).getD 0 = 0 := by
  obtain ⟨⟨m, c⟩, h⟩ := (C19_neutral_channels (option := option) (lib := lib) (K := constants) (E := 2)
    uncoupled_built neutralAt (fun r hr => by
      obtain rfl := List.mem_singleton.mp hr
      rfl) (fun r hr => by
      obtain rfl := List.mem_singleton.mp hr
      norm_num) cache (fun _ => none) (fun _ => none)).1
  obtain ⟨w, phi, -, hm⟩ := C104_spin_group uncoupled_built h (by
    intro r hr c hc
    obtain rfl := List.mem_singleton.mp hr
    right
    obtain ⟨c, hlt⟩ := c
    match c with
    | 0 => rfl
    | 1 => exact absurd hc (show ¬ inelastic.isIncident = true by decide)
    | 2 => exact absurd hc (show ¬ fission.isIncident = true by decide)
    | c + 3 => simp [uncoupled, channels] at hlt)
  refine ⟨m, c, h, ?_⟩
  rw [hm, Option.getD_none, zero_add]
  refine Finset.sum_eq_zero fun c _ => if_neg ?_
  rintro ⟨h1, h2⟩
  obtain ⟨c, hlt⟩ := c
  match c with
  | 0 => exact absurd h2 (show ¬ elastic.reaction = fission.reaction by decide)
  | 1 => exact absurd h1 (show ¬ inelastic.isIncident = true by decide)
  | 2 => exact absurd h1 (show ¬ fission.isIncident = true by decide)
  | c + 3 => simp [uncoupled, channels] at hlt

end Example

end Verif

namespace Verif.Endf

open Spec Complex

variable {K : Constants} {lib : CoulombLibrary} {tables : InterpolationLibrary}
  {initialBreitWigner : Channel → Verif.BreitWigner.Cache} {neutronMass E A : ℝ} {incident target : Str}
  {reactions : ReactionLibrary} {initial : (g : SpinGroup) → MatrixCache g.channels.length}
  {elementaryCharge : ℝ} {range : Range} {R R' : Reconstructor} {m : ReactionMap}
  {nro : Option (ℝ → Outcome ℝ)} {naps : ℤ}

/-- A table of radii is determined by the evaluation. -/
theorem table_unique {nro' : Option (ℝ → Outcome ℝ)}
    (h : Option.Rel (IsRadiusTable tables) range.scatteringRadius nro)
    (h' : Option.Rel (IsRadiusTable tables) range.scatteringRadius nro') : nro = nro' := by
  generalize range.scatteringRadius = s at h h'
  cases h with
  | none => cases h'; rfl
  | some h1 =>
    cases h' with
    | some h2 => rw [Except.ok.inj ((tableRadius_of h1).symm.trans (tableRadius_of h2))]

/-! ## Reich-Moore ranges -/

theorem phase_sine {φ : ℝ} {z : ℂ} (h : exp (2 * I * φ) = z) : 4 * Real.sin φ ^ 2 = normSq (1 - z) := by
  have := normSq_one_sub_exp (-φ)
  rw [Real.sin_neg, neg_sq] at this
  rw [← this, ← h]
  congr 2
  push_cast
  ring_nf

/-- The collision matrix without neutron widths. -/
theorem collision_uncoupled {φ : ℝ} {levels : List CoupledLevel} (h : ∀ r ∈ levels, 0 ≤ r.capture)
    (h0 : ∀ r ∈ levels, r.amplitude 0 = 0) (j : Fin 3) :
    reichMooreCollision φ E levels 0 j = if j = 0 then exp (-(2 * I * φ)) else 0 := by
  have hdet := Verif.Old.ReichMoore.det_ne_zero (E := E) h
  rw [Verif.Old.ReichMoore.codeK_eq, ← sub_eq_add_neg] at hdet
  have hrow : ∀ i, reichMooreK E levels 0 i = 0 := by
    intro i
    simp only [reichMooreK, Matrix.of_apply]
    apply List.sum_eq_zero
    intro x hx
    obtain ⟨r, hr, rfl⟩ := List.mem_map.mp hx
    simp [h0 r hr]
  have hinv := congrFun (congrFun (Matrix.mul_nonsing_inv _ (isUnit_iff_ne_zero.mpr hdet)) 0) j
  rw [Matrix.mul_apply, Fin.sum_univ_three] at hinv
  simp only [Matrix.sub_apply, hrow, sub_zero, Matrix.one_apply] at hinv
  simp only [Fin.isValue, if_true, one_mul, zero_ne_one, if_false, zero_mul, add_zero, Fin.reduceEq] at hinv
  unfold reichMooreCollision
  rw [Matrix.smul_apply, Matrix.sub_apply, Matrix.smul_apply, hinv, Matrix.one_apply]
  by_cases hj : j = 0
  · subst hj
    simp
    norm_num
  · rw [if_neg hj, if_neg (Ne.symm hj)]
    simp

theorem sum_by_l {α : Type} (l : α → ℕ) (G : α → ℝ) (X : ℕ → ℝ) {n : ℕ} {lvs : List α}
    (h : ∀ lv ∈ lvs, l lv < n ∨ G lv = 0) :
    (lvs.map fun lv => G lv * X (l lv)).sum
      = ∑ k ∈ Finset.range n, ((lvs.filter fun lv => l lv = k).map G).sum * X k := by
  induction lvs with
  | nil => simp
  | cons lv lvs ih =>
    have key : ∀ k, (((lv :: lvs).filter fun lv => l lv = k).map G).sum * X k
        = (if k = l lv then G lv * X (l lv) else 0) + ((lvs.filter fun lv => l lv = k).map G).sum * X k := by
      intro k
      by_cases hk : l lv = k
      · subst hk
        rw [List.filter_cons_of_pos (by simp), List.map_cons, List.sum_cons, if_pos rfl]
        ring
      · rw [List.filter_cons_of_neg (by simpa using hk), if_neg (Ne.symm hk), zero_add]
    rw [List.map_cons, List.sum_cons, ih fun x hx => h x (List.mem_cons_of_mem _ hx)]
    simp only [key]
    rw [Finset.sum_add_distrib, Finset.sum_ite_eq']
    congr 1
    rcases h lv List.mem_cons_self with hl | hl
    · rw [if_pos (Finset.mem_range.mpr hl)]
    · rw [hl, zero_mul, ite_self]

/-- What is reported for a Reich-Moore evaluation without neutron widths. -/
theorem reichMoore_potential {p : ReichMoore} {ws : List (CoupledWave × List Coupled)}
    {m : ReactionID → Option ℝ} (h : IsReichMoore K neutronMass A E incident target nro naps p ws m)
    (hz : ∀ lv ∈ p.lValues, ∀ r ∈ lv.resonances, r.neutronWidth = 0 ∧ 0 ≤ r.gammaWidth)
    (hap : ∀ lv ∈ p.lValues, lv.apl = 0 ∨ lv.apl = p.ap) {channel scattering : ℝ → Outcome ℝ} {radius : ℝ}
    (hr : IsRadii p.ap nro naps (A * neutronMass) channel scattering) (hrad : scattering E = .ok radius) :
    m (.elastic (pairID incident target)) = some (hardSphereScattering
      (neutronWaveNumber (waveConstant K.hbar neutronMass) A E)
      (neutronWaveNumber (waveConstant K.hbar neutronMass) A E * radius) p.nlsc) ∧
    m (.transition (pairID incident target) "capture".toList) = some 0 ∧
    (m (.transition (pairID incident target) "fission".toList)).getD 0 = 0 := by
  set k := neutronWaveNumber (waveConstant K.hbar neutronMass) A E with hk
  set X : ℕ → ℝ := fun l => normSq (1 - hardSpherePhase (k * radius) l) with hX
  have hlen : ∀ lv ∈ p.lValues, lengthOf p lv = p.ap := by
    intro lv hlv
    unfold lengthOf
    rcases hap lv hlv with h | h
    · rw [if_neg (not_not.mpr h)]
    · rw [h]; split <;> rfl
  have hcoll : ∀ lv (w : CoupledWave × List Coupled), lv ∈ p.lValues → List.Forall₂ (IsLevel (neutronWaveNumber
      (waveConstant K.hbar neutronMass) A) channel lv.l) lv.resonances w.2 → ∀ J (j : Fin 3),
      collisionOf E w.1 w.2 J 0 j = if j = 0 then exp (-(2 * I * w.1.φ)) else 0 := by
    intro lv w hlv hw J j
    refine collision_uncoupled (fun r hr => ?_) (fun r hr => ?_) j
    all_goals
      obtain ⟨a, ha, rfl⟩ := List.mem_map.mp hr
      obtain ⟨x, hx, hxa⟩ := forall₂_mem_right hw (List.mem_filter.mp ha).1
    · change 0 ≤ a.capture
      rw [hxa.capture]
      exact (hz lv hlv x hx).2
    · simp [Coupled.level, hxa.elastic, (hz lv hlv x hx).1]
  have hlv : ∀ lv ∈ p.lValues, ∀ w : CoupledWave × List Coupled,
      (if lv.resonances = [] then w.2 = [] else lv.l ≤ 4 ∧ lv.l < p.nlsc ∧
        ∃ channel scattering, IsRadii (lengthOf p lv) nro naps (A * neutronMass) channel scattering ∧
          IsLevelWave (neutronWaveNumber (waveConstant K.hbar neutronMass) A) channel scattering E
            lv w.1 w.2) →
      levelElastic p.spin E w.1 w.2 = givenFactor p.spin lv * X lv.l ∧ coupledCapture p.spin E w.1 w.2 = 0 ∧
      coupledFission p.spin E w.1 w.2 = 0 ∧ (lv.l < p.nlsc ∨ givenFactor p.spin lv = 0) := by
    intro lv hlv w hw
    by_cases hne : lv.resonances = []
    · rw [if_pos hne] at hw
      simp [levelElastic, coupledCapture, coupledFission, givenFactor, hw, hne]
    · rw [if_neg hne] at hw
      obtain ⟨-, hlt, c, s, r1, r2⟩ := hw
      rw [hlen lv hlv] at r1
      have hc : c = channel := funext fun e => (isRadii_unique (e := e) r1 hr).1
      subst hc
      have hU := hcoll lv w hlv r2.resonances
      obtain ⟨rad, q1, q2⟩ := r2.phase
      rw [(isRadii_unique (e := E) r1 hr).2, hrad] at q1
      obtain rfl := Except.ok.inj q1
      have hφ := phase_sine q2
      refine ⟨?_, ?_, ?_, .inl hlt⟩
      · unfold levelElastic givenFactor
        rw [level_spins r2.resonances, Finset.sum_mul]
        refine Finset.sum_congr rfl fun J _ => ?_
        rw [hU, if_pos rfl, normSq_one_sub_exp, hφ]
      · unfold coupledCapture
        refine Finset.sum_eq_zero fun J _ => ?_
        simp only [hU, Fin.sum_univ_three]
        simp [normSq_exp_neg]
      · unfold coupledFission
        refine Finset.sum_eq_zero fun J _ => ?_
        simp [hU]
  obtain ⟨φ, h1, h2⟩ := h.elastic
  have hcap := h.capture
  have hfis := h.fission
  have hsums : (ws.map fun w => levelElastic p.spin E w.1 w.2).sum
      = (p.lValues.map fun lv => givenFactor p.spin lv * X lv.l).sum ∧
      (ws.map fun w => coupledCapture p.spin E w.1 w.2).sum = 0 ∧
      (ws.map fun w => coupledFission p.spin E w.1 w.2).sum = 0 ∧
      ∀ lv ∈ p.lValues, lv.l < p.nlsc ∨ givenFactor p.spin lv = 0 := by
    have hw := h.waves
    unfold LevelWaves at hw
    clear h1 h2 hcap hfis h hcoll hz hap hlen
    revert hlv hw
    generalize p.lValues = lvs
    intro hlv hw
    induction hw with
    | nil => simp
    | cons k1 _ ih =>
      obtain ⟨i1, i2, i3, i4⟩ := ih fun lv h => hlv lv (List.mem_cons_of_mem _ h)
      obtain ⟨j1, j2, j3, j4⟩ := hlv _ List.mem_cons_self _ k1
      simp only [List.map_cons, List.sum_cons, i1, i2, i3, j1, j2, j3, add_zero]
      exact ⟨trivial, trivial, trivial, List.forall_mem_cons.mpr ⟨j4, i4⟩⟩
  obtain ⟨s1, s2, s3, s4⟩ := hsums
  refine ⟨?_, ?_, ?_⟩
  · rw [h2, s1, sum_by_l ReichMooreLValue.l _ _ s4, ← Finset.sum_add_distrib]
    unfold hardSphereScattering
    congr 2
    refine Finset.sum_congr rfl fun l hl => ?_
    have : missingFactor p l * (4 * Real.sin (φ l) ^ 2) = missingFactor p l * X l := by
      by_cases hm : missingFactor p l = 0
      · rw [hm, zero_mul, zero_mul]
      · obtain ⟨-, c, s, rad, r1, r2, r3⟩ := h1 l (Finset.mem_range.mp hl) hm
        rw [(isRadii_unique (e := E) r1 hr).2, hrad] at r2
        obtain rfl := Except.ok.inj r2
        rw [phase_sine r3]
    rw [this, ← add_mul]
    unfold missingFactor
    ring
  · rw [hcap, s2, mul_zero]
  · rw [hfis, s3, mul_zero]

/-- C104, Reich-Moore ranges: if no resonance has a neutron width, and no l value has a radius of its own, then
nothing is absorbed and elastic scattering is that of a hard sphere with the scattering radius of the range, for
all l below NLSC. -/
theorem C104_reich_moore {p : ReichMoore}
    (hR : fromENDF K lib tables reactions initialBreitWigner initial neutronMass elementaryCharge incident
      target range = .ok R)
    (hp : range.parameters = .reichMoore p)
    (ht : Option.Rel (IsRadiusTable tables) range.scatteringRadius nro)
    (hI : HalfInt p.spin) (hA : ∀ lv ∈ p.lValues, lv.awri = A)
    (hz : ∀ lv ∈ p.lValues, ∀ r ∈ lv.resonances, r.neutronWidth = 0 ∧ 0 ≤ r.gammaWidth)
    (hap : ∀ lv ∈ p.lValues, lv.apl = 0 ∨ lv.apl = p.ap) (hd : DistinctEnergies p) (h0 : 0 ≤ E)
    (hE : range.lower ≤ E ∧ E ≤ range.upper) {channel scattering : ℝ → Outcome ℝ} {radius : ℝ}
    (hr : IsRadii p.ap nro range.naps (A * neutronMass) channel scattering)
    (hrad : scattering E = .ok radius) (hm : R.call K lib E = .ok (m, R')) :
    m (.inl (.elastic (pairID incident target))) = some (hardSphereScattering
      (neutronWaveNumber (waveConstant K.hbar neutronMass) A E)
      (neutronWaveNumber (waveConstant K.hbar neutronMass) A E * radius) p.nlsc) ∧
    m (.inl (.transition (pairID incident target) "capture".toList)) = some 0 ∧
    (m (.inl (.transition (pairID incident target) "fission".toList))).getD 0 = 0 := by
  have hn : prescribedRadii range.scatteringRadius.isSome range.naps ≠ none := by
    obtain ⟨a, b, h, -⟩ := hr
    rw [prescribed_of ht, h]
    exact Option.some_ne_none _
  obtain ⟨nro', ws, ht', h, -⟩ := C69_cross_sections hR hp hn hI hA
    (fun lv hlv r hr => ⟨(hz lv hlv r hr).1.ge, (hz lv hlv r hr).2⟩) hd h0 hE hm
  obtain rfl := table_unique ht ht'
  exact reichMoore_potential h hz hap hr hrad

/-! ## Breit-Wigner ranges -/

/-- A partial wave without neutron widths. -/
theorem wave_potential {multi : Bool} {spin : ℚ} {w : Wave} {as : List Assigned}
    (h : ∀ a ∈ as, a.parameters.elastic = 0) :
    resonantElastic multi spin E w as = 0 ∧ captureSum spin E w as = 0 ∧ fissionSum spin E w as = 0 := by
  have hw : ∀ a ∈ as, a.parameters.neutronWidth w.p = 0 := by
    intro a ha
    simp [Parameters.neutronWidth, h a ha]
  refine ⟨?_, ?_, ?_⟩
  · unfold resonantElastic
    cases multi with
    | true =>
      have hc : ∀ J, levelCollision w.φ E ((as.filter fun r => r.J = J).map fun r => r.level w)
          = exp (-(2 * I * w.φ)) := by
        intro J
        have : levelSum E ((as.filter fun r => r.J = J).map fun r => r.level w) = 0 := by
          unfold levelSum
          apply List.sum_eq_zero
          intro x hx
          obtain ⟨v, hv, rfl⟩ := List.mem_map.mp hx
          obtain ⟨a, ha, rfl⟩ := List.mem_map.mp hv
          simp [Assigned.level, hw a (List.mem_filter.mp ha).1]
        rw [levelCollision, this, mul_zero, add_zero, mul_one]
      rw [if_pos rfl]
      unfold multiElastic
      simp only [hc, normSq_one_sub_exp]
      rw [← Finset.sum_mul]
      ring
    | false =>
      rw [if_neg Bool.false_ne_true]
      unfold singleElastic
      rw [List.sum_eq_zero]
      · ring
      · intro x hx
        obtain ⟨a, ha, rfl⟩ := List.mem_map.mp hx
        simp [Parameters.elasticTerm, hw a ha]
  · apply List.sum_eq_zero
    intro x hx
    obtain ⟨a, ha, rfl⟩ := List.mem_map.mp hx
    simp [Parameters.captureTerm, hw a ha]
  · apply List.sum_eq_zero
    intro x hx
    obtain ⟨a, ha, rfl⟩ := List.mem_map.mp hx
    simp [Parameters.fissionTerm, hw a ha]

theorem zipWith_zero {α β : Type} {Q : α → β → Prop} {f : α → β → ℝ} {as : List α} {bs : List β}
    (h : List.Forall₂ Q as bs) (hf : ∀ a b, a ∈ as → Q a b → f a b = 0) : (List.zipWith f as bs).sum = 0 := by
  induction h with
  | nil => rfl
  | cons h1 _ ih =>
    rw [List.zipWith_cons_cons, List.sum_cons, hf _ _ List.mem_cons_self h1,
      ih fun a b ha => hf a b (List.mem_cons_of_mem _ ha), add_zero]

/-- C104, Breit-Wigner ranges: if no resonance has a neutron width, nothing is absorbed and elastic scattering is
that of a hard sphere with the scattering radius of the range, for all l up to the greatest one with
resonances. -/
theorem C104_breit_wigner {p : BreitWigner} {multi : Bool}
    (hR : fromENDF K lib tables reactions initialBreitWigner initial neutronMass elementaryCharge incident
      target range = .ok R)
    (hp : range.parameters = if multi then .multiLevel p else .singleLevel p)
    (ht : Option.Rel (IsRadiusTable tables) range.scatteringRadius nro)
    (hA : ∀ lv ∈ p.lValues, lv.awri = A)
    (hz : ∀ lv ∈ p.lValues, ∀ r ∈ lv.resonances, r.neutronWidth = 0) {n : ℕ}
    (hn : ∀ lv ∈ p.lValues, lv.resonances ≠ [] → lv.l < n)
    (hn' : ∃ lv ∈ p.lValues, lv.resonances ≠ [] ∧ lv.l + 1 = n)
    (hE : range.lower ≤ E ∧ E ≤ range.upper) {channel scattering : ℝ → Outcome ℝ} {radius : ℝ}
    (hr : IsRadii p.ap nro range.naps (A * neutronMass) channel scattering)
    (hrad : scattering E = .ok radius) (hm : R.call K lib E = .ok (m, R')) :
    m (.inr ⟨incident, target, .elastic⟩) = some (hardSphereScattering
      (neutronWaveNumber (waveConstant K.hbar neutronMass) A E)
      (neutronWaveNumber (waveConstant K.hbar neutronMass) A E * radius) n) ∧
    m (.inr ⟨incident, target, .capture⟩) = some 0 ∧
    (m (.inr ⟨incident, target, .fission⟩)).getD 0 = 0 := by
  have hpre : prescribedRadii range.scatteringRadius.isSome range.naps ≠ none := by
    obtain ⟨a, b, h, -⟩ := hr
    rw [prescribed_of ht, h]
    exact Option.some_ne_none _
  obtain ⟨nro', ws, ht', h, -⟩ := C65_cross_sections hR hp hpre hE hm
  obtain rfl := table_unique ht ht'
  have hwave : ∀ lv (w : Wave × List Assigned), lv ∈ p.lValues →
      (if lv.resonances = [] then w.2 = [] else lv.l ≤ 4 ∧
        ∃ channel scattering, IsRadii p.ap nro range.naps (lv.awri * neutronMass) channel scattering ∧
          IsPartialWave (neutronWaveNumber (waveConstant K.hbar neutronMass) lv.awri) channel scattering E
            lv w.1 w.2) → ∀ a ∈ w.2, a.parameters.elastic = 0 := by
    intro lv w hlv hw a ha
    by_cases hne : lv.resonances = []
    · rw [if_pos hne] at hw
      rw [hw] at ha
      cases ha
    · rw [if_neg hne] at hw
      obtain ⟨-, c, s, -, r2⟩ := hw
      obtain ⟨x, hx, hxa⟩ := forall₂_mem_right r2.resonances ha
      rw [hxa.elastic, hz lv hlv x hx]
  obtain ⟨before, lv, after, c, s, rad, lmax, φ, e1, e2, e3, e4, e5, e6, ⟨x, x1, x2, x3⟩, e8, e9, e10⟩ :=
    h.elastic
  have hlv : lv ∈ p.lValues := by rw [e1]; simp
  obtain ⟨y, y1, y2, y3⟩ := hn'
  have hl : lmax + 1 = n := by
    have a1 := hn x x1 x2
    have a2 := e6 y y1 y2
    omega
  rw [hA lv hlv] at e4 e8 e9 e10
  rw [(isRadii_unique (e := E) e4 hr).2, hrad] at e5
  obtain rfl := Except.ok.inj e5
  refine ⟨?_, ?_, ?_⟩
  · rw [e10, zipWith_zero h.waves fun lv w hlv hw => by
      rw [(wave_potential (hwave lv w hlv hw)).1, mul_zero], add_zero, hl]
    unfold hardSphereScattering
    rw [mul_div_assoc, mul_assoc, mul_left_comm, Finset.mul_sum]
    congr 2
    refine Finset.sum_congr rfl fun l hl' => ?_
    rw [← phase_sine (e8 l (by have := Finset.mem_range.mp hl'; omega))]
    ring
  · rw [h.capture, zipWith_zero h.waves fun lv w hlv hw => by
      rw [(wave_potential (multi := multi) (hwave lv w hlv hw)).2.1, mul_zero]]
  · rw [h.fission, zipWith_zero h.waves fun lv w hlv hw => by
      rw [(wave_potential (multi := multi) (hwave lv w hlv hw)).2.2, mul_zero]]

namespace Example

/-- An s-wave resonance at energy 1 without neutron width, and p-waves without resonances. -/
noncomputable def free : ReichMoore :=
  ⟨1 / 2, 1 / 2, 2, [⟨0, 10, 0, [⟨1, 0, 0, 1, 0, 0⟩]⟩]⟩

theorem free_physical : PhysicalReichMoore 1 10 none 1 free := by
  refine ⟨one_pos, by norm_num, by simp [free], ⟨1, by norm_num [free]⟩, by simp [free],
    by simp [free], by simp [free], by simp [free], ⟨?_, ?_⟩, ?_, by simp [free], ?_, ?_⟩
  · intro lv hlv r hr
    simp only [free, List.mem_singleton] at hlv
    subst hlv
    simp only [List.mem_singleton] at hr
    subst hr
    exact ⟨by norm_num [free], 0, ⟨by norm_num [free], by norm_num [free], 1,
      by norm_num [free]⟩, by norm_num, by norm_num, 0, by norm_num⟩
  · intro lv hlv r hr r' hr' h0
    simp only [free, List.mem_singleton] at hlv
    subst hlv
    simp only [List.mem_singleton] at hr
    subst hr
    exact absurd rfl h0
  · intro lv hlv r hr r' hr' h0
    simp only [free, List.mem_singleton] at hlv
    subst hlv
    simp only [List.mem_singleton] at hr
    subst hr
    exact absurd rfl h0
  · intro J parity
    refine List.Nodup.sublist ((List.filter_sublist).map _) ?_
    by_cases h1 : (1 : ℤ) = parity
    · simp [free, h1]
    · simp [free, h1]
  · intro lv hlv
    refine ⟨_, _, radii _ _, fun r hr => ⟨lengthOf free lv, ?_, rfl⟩⟩
    simp only [free, List.mem_singleton] at hlv
    subst hlv
    norm_num [lengthOf, free]

/-- C104 applies to this range. -/
example (K : Constants) (lib : CoulombLibrary) (tables : InterpolationLibrary) (reactions : ReactionLibrary)
    (initialBreitWigner : Channel → Verif.BreitWigner.Cache)
    (initial : (g : SpinGroup) → MatrixCache g.channels.length) (elementaryCharge : ℝ) (incident target : Str) :
    ∃ R m R', fromENDF K lib tables reactions initialBreitWigner initial 1 elementaryCharge incident target
        ⟨1 / 2, 2, 1, 3, 1, none, .reichMoore free⟩ = .ok R ∧ R.call K lib 1 = .ok (m, R') ∧
      m (.inl (.elastic (pairID incident target))) = some (hardSphereScattering
        (neutronWaveNumber (waveConstant K.hbar 1) 10 1)
        (neutronWaveNumber (waveConstant K.hbar 1) 10 1 * (1 / 2)) 2) := by
  obtain ⟨R, h1, h2⟩ := C69_accepted (K := K) (lib := lib) (tables := tables) (reactions := reactions)
    (initialBreitWigner := initialBreitWigner) (initial := initial) (elementaryCharge := elementaryCharge)
    (incident := incident) (target := target) (nro := none) (neutronMass := 1) (A := 10)
    (range := ⟨1 / 2, 2, 1, 3, 1, none, .reichMoore free⟩) ⟨rfl, rfl⟩ rfl .none free_physical
  obtain ⟨⟨m, R'⟩, hv⟩ := h2 1 one_ne_zero (radiiAt (by norm_num [free]) _ _) (by
      intro lv hlv
      refine radiiAt ?_ _ _
      simp only [free, List.mem_singleton] at hlv
      subst hlv
      norm_num [lengthOf, free]) (by
      intro lv hlv r hr _
      simp only [free, List.mem_singleton] at hlv
      subst hlv
      simp only [List.mem_singleton] at hr
      subst hr
      exact one_ne_zero)
  refine ⟨R, m, R', h1, hv, ?_⟩
  exact (C104_reich_moore (A := 10) (nro := none) h1 rfl .none free_physical.spin free_physical.ratio (by
      intro lv hlv r hr
      simp only [free, List.mem_singleton] at hlv
      subst hlv
      simp only [List.mem_singleton] at hr
      subst hr
      norm_num) (by simp [free]) free_physical.different zero_le_one (by norm_num) (radii _ _) rfl hv).1

end Example

namespace BreitWignerExample

/-- The same with a Breit-Wigner range, the resonance is one of p-waves. -/
noncomputable def free : BreitWigner := ⟨0, 1 / 2, [⟨0, 10, 0, 0, []⟩, ⟨1, 10, 0, 0, [⟨7, 3 / 2, 0, 1 / 10, 0, 0⟩]⟩]⟩

theorem free_physical : Spec.PhysicalBreitWigner 1 none 1 free where
  mass := one_pos
  spin := ⟨0, by norm_num [free]⟩
  some := ⟨_, List.mem_cons_of_mem _ List.mem_cons_self, by simp⟩
  distinct := by simp [free]
  awri := by simp [free]
  l := by simp [free]
  spins := by
    intro lv hlv r hr
    simp only [free, List.mem_cons, List.not_mem_nil, or_false] at hlv
    rcases hlv with rfl | rfl
    · cases hr
    · have e : r.spin = 3 / 2 := by
        simp only [List.mem_cons, List.not_mem_nil, or_false] at hr
        rcases hr with rfl <;> rfl
      rw [e, abs_of_pos (by norm_num)]
      exact ⟨1 / 2, ⟨by norm_num [free, abs_of_pos], by norm_num [free],
        1, by norm_num [free]⟩, by norm_num [abs_of_pos], by norm_num, 3, by norm_num⟩
  signs := by
    intro lv hlv r hr r' hr' h
    simp only [free, List.mem_cons, List.not_mem_nil, or_false] at hlv
    rcases hlv with rfl | rfl <;> simp only [List.mem_cons, List.not_mem_nil, or_false] at hr hr'
    · rcases hr with rfl <;> rcases hr' with rfl <;> rfl
  widths := by
    intro lv hlv r hr
    simp only [free, List.mem_cons, List.not_mem_nil, or_false] at hlv
    rcases hlv with rfl | rfl <;> simp only [List.mem_cons, List.not_mem_nil, or_false] at hr
    · rcases hr with rfl; norm_num
  radii := by
    intro lv hlv
    refine ⟨fun _ => .ok (1 / 2), fun _ => .ok (1 / 2), radii _, fun r hr => ⟨?_, ⟨1 / 2, by norm_num, rfl⟩, fun hlrx => ?_⟩⟩
    · simp only [free, List.mem_cons, List.not_mem_nil, or_false] at hlv
      rcases hlv with rfl | rfl <;> simp only [List.mem_cons, List.not_mem_nil, or_false] at hr
      · rcases hr with rfl; norm_num
    · exfalso
      simp only [free, List.mem_cons, List.not_mem_nil, or_false] at hlv
      rcases hlv with rfl | rfl <;> exact hlrx rfl

theorem free_hasRadii (E : ℝ) : Spec.HasRadii 1 none 1 free E := fun _ _ =>
  ⟨fun _ => .ok (1 / 2), fun _ => .ok (1 / 2), radii _, ⟨1 / 2, by norm_num, rfl⟩, ⟨1 / 2, by norm_num, rfl⟩, 1 / 2, rfl⟩

/-- C104 applies to this range. -/
example (K : Constants) (lib : CoulombLibrary) (tables : InterpolationLibrary) (reactions : ReactionLibrary)
    (initialBreitWigner : Channel → Verif.BreitWigner.Cache)
    (initial : (g : SpinGroup) → MatrixCache g.channels.length) (incident target : Str) (multi : Bool) :
    ∃ R m R', fromENDF K lib tables reactions initialBreitWigner initial 1 1 incident target
        ⟨1, 20, 1, if multi then 2 else 1, 1, none, if multi then .multiLevel free else .singleLevel free⟩
          = .ok R ∧ R.call K lib 7 = .ok (m, R') ∧
      m (.inr ⟨incident, target, .elastic⟩) = some (hardSphereScattering
        (neutronWaveNumber (waveConstant K.hbar 1) 10 7)
        (neutronWaveNumber (waveConstant K.hbar 1) 10 7 * (1 / 2)) 2) := by
  obtain ⟨R, h1, h2⟩ := C65_accepted (K := K) (lib := lib) (tables := tables) (reactions := reactions)
    (initialBreitWigner := initialBreitWigner) (initial := initial) (elementaryCharge := 1)
    (incident := incident) (target := target)
    (range := ⟨1, 20, 1, if multi then 2 else 1, 1, none,
      if multi then .multiLevel free else .singleLevel free⟩) (multi := multi)
    ⟨rfl, rfl⟩ rfl .none free_physical
  obtain ⟨⟨m, R'⟩, hv⟩ := h2 7 (by norm_num) (free_hasRadii 7)
  refine ⟨R, m, R', h1, hv, ?_⟩
  exact (C104_breit_wigner (A := 10) (nro := none) (multi := multi) h1 rfl .none (by simp [free])
    (by simp [free]) (n := 2) (by simp [free]) ⟨_, List.mem_cons_of_mem _ List.mem_cons_self, by simp⟩
    (by norm_num) (radii _) rfl hv).1

end BreitWignerExample

end Verif.Endf
