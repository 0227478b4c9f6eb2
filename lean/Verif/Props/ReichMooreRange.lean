import Verif.Lemmas.ReichMooreSystem
import Verif.Props.Endf

/-!
# Property C69: the cross sections of a Reich-Moore range
-/

namespace Verif.Endf

open Spec Complex

variable {K : Constants} {lib : CoulombLibrary} {tables : InterpolationLibrary}
  {initialBreitWigner : Channel → Verif.BreitWigner.Cache} {neutronMass E A : ℝ} {incident target : Str}
  {reactions : ReactionLibrary} {initial : (g : SpinGroup) → MatrixCache g.channels.length}
  {elementaryCharge : ℝ} {range : Range} {R R' : Reconstructor} {m : ReactionMap} {p : ReichMoore}
  {nro : Option (ℝ → Outcome ℝ)} {naps : ℤ}

/-- C69: the cross sections that a reconstructor gives for a Reich-Moore range are those of the formula for
each l value and (signed) J, although the code evaluates all channels of one J and parity together. The
elastic channels without resonances scatter like a hard sphere with the radius AP.

The energies of the resonances of one J and parity have to be different: the code makes one resonance of
those that agree. -/
theorem C69_cross_sections
    (hR : fromENDF K lib tables reactions initialBreitWigner initial neutronMass elementaryCharge incident
      target range = .ok R)
    (hp : range.parameters = .reichMoore p)
    (hn : prescribedRadii range.scatteringRadius.isSome range.naps ≠ none)
    (hI : HalfInt p.spin) (hA : ∀ lv ∈ p.lValues, lv.awri = A)
    (hw : ∀ lv ∈ p.lValues, ∀ r ∈ lv.resonances, 0 ≤ r.neutronWidth ∧ 0 ≤ r.gammaWidth)
    (hd : DistinctEnergies p) (h0 : 0 ≤ E) (hE : range.lower ≤ E ∧ E ≤ range.upper)
    (hm : R.call K lib E = .ok (m, R')) :
    ∃ nro ws, Option.Rel (IsRadiusTable tables) range.scatteringRadius nro ∧
      IsReichMoore K neutronMass A E incident target nro range.naps p ws (fun id => m (.inl id)) ∧
      ∀ id, m (.inr id) = none := by
  obtain ⟨h1, h2, -, nro, h3, h4⟩ := C47_dispatch hR
  have hrel : Option.Rel (IsRadiusTable tables) range.scatteringRadius nro := by
    rcases radiusTable_ok h3 with ⟨e1, e2⟩ | ⟨r, f, e1, e2, e3⟩
    · rw [e1, e2]
      exact .none
    · rw [e1, e2]
      exact .some e3
  have hn' : prescribedRadii nro.isSome range.naps ≠ none := by
    rcases radiusTable_ok h3 with ⟨e1, e2⟩ | ⟨r, f, e1, e2, -⟩
    · rw [e1] at hn
      rwa [e2]
    · rw [e1] at hn
      rwa [e2]
  unfold Reconstructor.call at hm
  rw [h1, h2, if_pos ⟨hE.1, hE.2⟩] at hm
  obtain ⟨⟨m1, system⟩, hv, hm⟩ := bind_ok.mp hm
  cases hm
  rw [hp] at h4
  unfold SystemVariant.evaluate at hv
  cases hs : R.system with
  | shiftFactor s =>
    rw [hs] at h4 hv
    dsimp only at hv
    obtain ⟨⟨m, s'⟩, hv2, hm⟩ := bind_ok.mp hv
    cases hm
    obtain ⟨ws, hws⟩ := system_reichMoore hI hn' hA hw hd h0 h4 hv2
    exact ⟨nro, ws, hrel, hws, fun id => rfl⟩
  | singleLevel s => rw [hs] at h4; exact h4.elim
  | multiLevel s => rw [hs] at h4; exact h4.elim
  | constant s => rw [hs] at h4; exact h4.elim
  | unresolved s => rw [hs] at h4; exact h4.elim

/-! ## The formula without a radius for each l -/

theorem level_spins {k : ℝ → ℝ} {channel : ℝ → Outcome ℝ} {l : ℕ} {rs : List ReichMooreResonance}
    {as : List Coupled} (h : List.Forall₂ (IsLevel k channel l) rs as) :
    as.map Coupled.J = rs.map ReichMooreResonance.spin := by
  induction h with
  | nil => rfl
  | cons h1 _ ih => rw [List.map_cons, List.map_cons, ih, h1.J]

theorem missing_given {lv : ReichMooreLValue} (hl : (p.lValues.map ReichMooreLValue.l).Nodup)
    (h : lv ∈ p.lValues) : missingFactor p lv.l = 2 * lv.l + 1 - givenFactor p.spin lv := by
  unfold missingFactor
  have : (p.lValues.filter fun x => x.l = lv.l) = [lv] := by
    generalize p.lValues = lvs at hl h
    induction lvs with
    | nil => cases h
    | cons x xs ih =>
      rw [List.map_cons, List.nodup_cons] at hl
      rcases List.mem_cons.mp h with rfl | h
      · rw [List.filter_cons_of_pos (by simp), List.filter_eq_nil_iff.mpr]
        intro y hy
        have : y.l ≠ lv.l := fun e => hl.1 (e ▸ List.mem_map_of_mem (f := ReichMooreLValue.l) hy)
        simpa using this
      · have : x.l ≠ lv.l := fun e => hl.1 (e ▸ List.mem_map_of_mem (f := ReichMooreLValue.l) h)
        rw [List.filter_cons_of_neg (by simpa using this), ih hl.2 h]
  rw [this]
  simp

theorem missing_absent {l : ℕ} (h : l ∉ p.lValues.map ReichMooreLValue.l) :
    missingFactor p l = 2 * l + 1 := by
  unfold missingFactor
  have : (p.lValues.filter fun x => x.l = l) = [] := by
    rw [List.filter_eq_nil_iff]
    intro x hx hxl
    have hxl : x.l = l := by simpa using hxl
    exact h (hxl ▸ List.mem_map_of_mem (f := ReichMooreLValue.l) hx)
  rw [this]
  simp

theorem sum_range_split {n : ℕ} {ls : List ℕ} (hl : ls.Nodup) (h : ∀ l ∈ ls, l < n) (f : ℕ → ℝ) :
    ∑ l ∈ Finset.range n, f l = (ls.map f).sum + ∑ l ∈ (Finset.range n).filter (· ∉ ls), f l := by
  rw [← Finset.sum_filter_add_sum_filter_not (Finset.range n) (· ∈ ls), ← List.sum_toFinset f hl]
  congr 2
  ext l
  simp only [Finset.mem_filter, Finset.mem_range, List.mem_toFinset]
  exact ⟨fun h => h.2, fun hm => ⟨h l hm, hm⟩⟩

/-- C69: if no l value that lacks a channel has a radius of its own, elastic scattering is that of the
formula: for each l value with resonances that of the ENDF manual, and that of a hard sphere for all other l
below NLSC. -/
theorem C69_elastic {ws : List (CoupledWave × List Coupled)} {m : ReactionID → Option ℝ}
    (h : IsReichMoore K neutronMass A E incident target nro naps p ws m)
    (hl : (p.lValues.map ReichMooreLValue.l).Nodup) (hne : ∀ lv ∈ p.lValues, lv.resonances ≠ [])
    (hap : ∀ lv ∈ p.lValues, lv.apl = 0 ∨ lv.apl = p.ap ∨ missingFactor p lv.l = 0) :
    ElasticFormula K neutronMass A E incident target nro naps p ws m := by
  obtain ⟨φ, h1, h2⟩ := h.elastic
  refine ⟨φ, ?_, ?_⟩
  · intro l hlt hmem
    refine h1 l hlt ?_
    rw [missing_absent hmem]
    positivity
  · rw [h2]
    have hlt : ∀ l ∈ p.lValues.map ReichMooreLValue.l, l < p.nlsc := by
      intro l hmem
      obtain ⟨lv, hlv, rfl⟩ := List.mem_map.mp hmem
      obtain ⟨w, -, hw⟩ := forall₂_mem_left h.waves hlv
      rw [if_neg (hne lv hlv)] at hw
      exact hw.2.1
    rw [sum_range_split hl hlt, ← add_assoc]
    congr 3
    · have key : ∀ lv ∈ p.lValues, ∀ w : CoupledWave × List Coupled, (if lv.resonances = [] then w.2 = [] else lv.l ≤ 4 ∧ lv.l < p.nlsc ∧
          ∃ channel scattering, IsRadii (lengthOf p lv) nro naps (A * neutronMass) channel scattering ∧
          IsLevelWave (neutronWaveNumber (waveConstant K.hbar neutronMass) A) channel scattering E
            lv w.1 w.2) → coupledElastic p.spin E w.1 w.2 = levelElastic p.spin E w.1 w.2
              + missingFactor p lv.l * (4 * Real.sin (φ lv.l) ^ 2) := by
        intro lv hlv w hw
        rw [if_neg (hne lv hlv)] at hw
        obtain ⟨h4, hlt, channel, scattering, r1, r2⟩ := hw
        unfold coupledElastic levelElastic
        congr 1
        have e1 : missingFactor p lv.l = 2 * w.1.l + 1
            - ∑ J ∈ (w.2.map Coupled.J).toFinset, (neutronFactor p.spin |J| : ℝ) := by
          rw [missing_given hl hlv, level_spins r2.resonances, r2.l]
          rfl
        rw [← e1]
        by_cases hm : missingFactor p lv.l = 0
        · rw [hm, zero_mul, zero_mul]
        · obtain ⟨-, channel', scattering', radius, r3, r4, r5⟩ := h1 lv.l hlt hm
          have e2 : lengthOf p lv = p.ap := by
            unfold lengthOf
            rcases hap lv hlv with h | h | h
            · rw [if_neg (not_not.mpr h)]
            · rw [h]; split <;> rfl
            · exact absurd h hm
          rw [e2] at r1
          obtain ⟨radius', r6, r7⟩ := r2.phase
          rw [(isRadii_unique (e := E) r1 r3).2, r4] at r6
          obtain rfl := Except.ok.inj r6
          rw [sin_sq_eq_of_exp (r7.trans r5.symm)]
      clear h2 hlt hl hne hap h1
      have hw := h.waves
      unfold LevelWaves at hw
      revert key hw
      generalize hlvs : p.lValues = lvs
      intro key hw
      clear hlvs h
      induction hw with
      | nil => simp
      | cons k1 _ ih =>
        have ih := ih fun lv hlv => key lv (List.mem_cons_of_mem _ hlv)
        have k2 := key _ List.mem_cons_self _ k1
        simp only [List.map_cons, List.sum_cons] at ih ⊢
        rw [k2, ← ih]
        ring
    · refine Finset.sum_congr rfl fun l hl' => ?_
      rw [missing_absent (Finset.mem_filter.mp hl').2]

/-! ## The formula determines the partial waves -/

theorem level_unique {k : ℝ → ℝ} {channel channel' : ℝ → Outcome ℝ} {l : ℕ} {r : ReichMooreResonance}
    {a a' : Coupled} (hc : ∀ e, channel e = channel' e) (h : IsLevel k channel l r a)
    (h' : IsLevel k channel' l r a') : a = a' := by
  obtain ⟨radius, r1, r2⟩ := h.own
  obtain ⟨radius', r3, r4⟩ := h'.own
  rw [hc, r3] at r1
  obtain rfl := Except.ok.inj r1
  have h1 := h.J.trans h'.J.symm
  have h2 := h.energy.trans h'.energy.symm
  have h3 := h.elastic.trans h'.elastic.symm
  have h4 := h.capture.trans h'.capture.symm
  have h5 := h.fissionA.trans h'.fissionA.symm
  have h6 := h.fissionB.trans h'.fissionB.symm
  have h7 := r2.trans r4.symm
  cases a
  cases a'
  simp only at h1 h2 h3 h4 h5 h6 h7
  rw [h1, h2, h3, h4, h5, h6, h7]

theorem levels_unique {k : ℝ → ℝ} {channel channel' : ℝ → Outcome ℝ} {l : ℕ}
    {rs : List ReichMooreResonance} {as as' : List Coupled} (hc : ∀ e, channel e = channel' e)
    (h : List.Forall₂ (IsLevel k channel l) rs as) (h' : List.Forall₂ (IsLevel k channel' l) rs as') :
    as = as' := by
  induction h generalizing as' with
  | nil => cases h'; rfl
  | cons h1 _ ih =>
    cases h' with
    | cons h1' h2' => rw [level_unique hc h1 h1', ih h2']

theorem wave_unique {k : ℝ → ℝ} {channel scattering channel' scattering' : ℝ → Outcome ℝ}
    {lv : ReichMooreLValue} {w w' : CoupledWave} {as as' : List Coupled}
    (hc : ∀ e, channel e = channel' e) (hs : ∀ e, scattering e = scattering' e)
    (h : IsLevelWave k channel scattering E lv w as)
    (h' : IsLevelWave k channel' scattering' E lv w' as') :
    as = as' ∧ w.l = w'.l ∧ w.p = w'.p ∧ exp (2 * I * w.φ) = exp (2 * I * w'.φ) := by
  obtain ⟨radius, r1, r2⟩ := h.own
  obtain ⟨radius', r3, r4⟩ := h'.own
  rw [hc, r3] at r1
  obtain rfl := Except.ok.inj r1
  obtain ⟨radius, r5, r6⟩ := h.phase
  obtain ⟨radius', r7, r8⟩ := h'.phase
  rw [hs, r7] at r5
  obtain rfl := Except.ok.inj r5
  exact ⟨levels_unique hc h.resonances h'.resonances, h.l.trans h'.l.symm, r2.trans r4.symm,
    r6.trans r8.symm⟩

theorem collision_unique {w w' : CoupledWave} {as : List Coupled} (hp : w.p = w'.p)
    (hφ : exp (2 * I * w.φ) = exp (2 * I * w'.φ)) : collisionOf E w as = collisionOf E w' as := by
  funext J
  unfold collisionOf reichMooreCollision
  rw [hp, exp_neg, exp_neg, hφ]

theorem levelElastic_unique {spin : ℚ} {w w' : CoupledWave} {as : List Coupled} (hp : w.p = w'.p)
    (hφ : exp (2 * I * w.φ) = exp (2 * I * w'.φ)) :
    levelElastic spin E w as = levelElastic spin E w' as := by
  unfold levelElastic
  rw [collision_unique hp hφ]

end Verif.Endf
