import Verif.Props.Unitarity
import Verif.Props.OldReichMoore
import Verif.Props.ReichMooreRangeAccepted

/-!
# Property C74 for Reich-Moore ranges
-/

namespace Verif.Endf

open Spec Complex

variable {K : Constants} {lib : CoulombLibrary} {tables : InterpolationLibrary}
  {initialBreitWigner : Channel → Verif.BreitWigner.Cache} {neutronMass E A : ℝ} {incident target : Str}
  {reactions : ReactionLibrary} {initial : (g : SpinGroup) → MatrixCache g.channels.length}
  {elementaryCharge : ℝ} {range : Range} {R R' : Reconstructor} {m : ReactionMap} {p : ReichMoore}

theorem neutronFactor_nonneg {I : ℚ} (hI : HalfInt I) (J : ℚ) : (0 : ℝ) ≤ neutronFactor I |J| := by
  have : 0 ≤ neutronFactor I |J| := by
    obtain ⟨n, rfl⟩ := hI
    unfold neutronFactor
    positivity
  exact_mod_cast this

/-- The cross sections of one partial wave, in units of `π/k²`. -/
theorem wave_limits {I : ℚ} (hI : HalfInt I) {w : CoupledWave} {as : List Coupled}
    (h : ∀ a ∈ as, 0 ≤ a.capture) :
    0 ≤ levelElastic I E w as ∧ 0 ≤ coupledCapture I E w as ∧ 0 ≤ coupledFission I E w as ∧
    coupledCapture I E w as + coupledFission I E w as
      ≤ ∑ J ∈ (as.map Coupled.J).toFinset, (neutronFactor I |J| : ℝ) ∧
    levelElastic I E w as + coupledCapture I E w as + coupledFission I E w as
      ≤ 4 * ∑ J ∈ (as.map Coupled.J).toFinset, (neutronFactor I |J| : ℝ) := by
  have hI' : 0 < 4 * I + 2 := by
    obtain ⟨n, rfl⟩ := hI
    positivity
  refine ⟨Finset.sum_nonneg fun J _ => mul_nonneg (neutronFactor_nonneg hI J) (normSq_nonneg _),
    Old.ReichMoore.coupledCapture_nonneg hI' h, Finset.sum_nonneg fun J _ =>
      mul_nonneg (neutronFactor_nonneg hI J) (add_nonneg (normSq_nonneg _) (normSq_nonneg _)), ?_, ?_⟩
  · unfold coupledCapture coupledFission
    rw [← Finset.sum_add_distrib]
    refine Finset.sum_le_sum fun J _ => ?_
    rw [← mul_add]
    refine mul_le_of_le_one_right (neutronFactor_nonneg hI J) ?_
    rw [Fin.sum_univ_three]
    have := normSq_nonneg (collisionOf E w as J 0 0)
    linarith
  · unfold levelElastic coupledCapture coupledFission
    rw [← Finset.sum_add_distrib, ← Finset.sum_add_distrib, Finset.mul_sum]
    refine Finset.sum_le_sum fun J _ => ?_
    rw [← mul_add, ← mul_add, mul_comm (4 : ℝ)]
    refine mul_le_mul_of_nonneg_left ?_ (neutronFactor_nonneg hI J)
    have hcap : ∀ l ∈ (as.filter fun a => a.J = J).map (Coupled.level w.p), 0 ≤ l.capture := by
      intro l hl
      obtain ⟨a, ha, rfl⟩ := List.mem_map.mp hl
      exact h a (List.mem_filter.mp ha).1
    have h1 : 0 ≤ 1 - ∑ j, normSq (collisionOf E w as J 0 j) := by
      unfold collisionOf
      rw [Old.ReichMoore.capture_eq hcap]
      have := Old.ReichMoore.loss_nonneg (E := E) hcap fun j =>
        (1 + Old.ReichMoore.codeK E ((as.filter fun a => a.J = J).map (Coupled.level w.p)))⁻¹ j 0
      positivity
    rw [Fin.sum_univ_three] at h1 ⊢
    have h2 := normSq_nonneg (collisionOf E w as J 0 1)
    have h3 := normSq_nonneg (collisionOf E w as J 0 2)
    have h4 := normSq_sub 1 (collisionOf E w as J 0 0)
    have h5 : -1 ≤ (collisionOf E w as J 0 0).re := by
      have h6 : normSq (collisionOf E w as J 0 0) ≤ 1 := by linarith
      rw [normSq_eq_norm_sq] at h6
      exact (abs_le.mp ((abs_re_le_norm _).trans ((sq_le_one_iff₀ (norm_nonneg _)).mp h6))).1
    simp only [map_one, one_mul, conj_re] at h4
    linarith

theorem missing_nonneg (hI : HalfInt p.spin) (hA : ∀ lv ∈ p.lValues, lv.awri = A)
    {nro : Option (ℝ → Outcome ℝ)} {naps : ℤ} {s : CompoundSystem}
    (h : makeReichMooreCompoundSystem K lib initial neutronMass incident target nro naps p = .ok s)
    {l : ℕ} (hl : l < p.nlsc) : 0 ≤ missingFactor p l := by
  obtain ⟨blocks, pair, radii, remaining, consolidated, hL, -, -⟩ := Layout.of_system hI hA h
  rw [← hL.missing hI hl]
  refine List.sum_nonneg fun x hx => ?_
  obtain ⟨n, hn, rfl⟩ := List.mem_map.mp hx
  obtain ⟨-, h2, -⟩ := hL.left hI n (List.mem_filter.mp hn).1
  have := neutronFactor_nonneg hI n.J
  obtain ⟨-, x, hx⟩ := h2
  rwa [hx, abs_of_nonneg (by positivity), ← hx] at this

/-- C74, Reich-Moore ranges: no cross section is negative, all of them together do not exceed
`4π/k² NLSC²`, and capture and fission together do not exceed `π/k² NLSC²`: `NLSC²` is the sum of the
`2l+1` of the l that are considered. -/
theorem C74_reich_moore
    (hR : fromENDF K lib tables reactions initialBreitWigner initial neutronMass elementaryCharge incident
      target range = .ok R)
    (hp : range.parameters = .reichMoore p)
    (hn : prescribedRadii range.scatteringRadius.isSome range.naps ≠ none)
    (hI : HalfInt p.spin) (hA : ∀ lv ∈ p.lValues, lv.awri = A)
    (hw : ∀ lv ∈ p.lValues, ∀ r ∈ lv.resonances, 0 ≤ r.neutronWidth ∧ 0 ≤ r.gammaWidth)
    (hd : DistinctEnergies p) (h0 : 0 ≤ E) (hE : range.lower ≤ E ∧ E ≤ range.upper)
    (hm : R.call K lib E = .ok (m, R')) :
    (∀ id, 0 ≤ (m id).getD 0) ∧
    (∀ ids : Finset (ReactionID ⊕ LegacyID), ∑ id ∈ ids, (m id).getD 0
      ≤ 4 * Real.pi / neutronWaveNumber (waveConstant K.hbar neutronMass) A E ^ 2 * p.nlsc ^ 2) ∧
    ∀ ids : Finset (ReactionID ⊕ LegacyID), .inl (.elastic (pairID incident target)) ∉ ids →
      ∑ id ∈ ids, (m id).getD 0
        ≤ Real.pi / neutronWaveNumber (waveConstant K.hbar neutronMass) A E ^ 2 * p.nlsc ^ 2 := by
  obtain ⟨nro, ws, -, h, hleg⟩ := C69_cross_sections hR hp hn hI hA hw hd h0 hE hm
  have hmiss : ∀ l < p.nlsc, 0 ≤ missingFactor p l := by
    obtain ⟨-, -, -, nro', -, k4⟩ := C47_dispatch hR
    rw [hp] at k4
    intro l hl
    cases hs : R.system with
    | shiftFactor s => rw [hs] at k4; exact missing_nonneg hI hA k4 hl
    | singleLevel s => rw [hs] at k4; exact k4.elim
    | multiLevel s => rw [hs] at k4; exact k4.elim
    | constant s => rw [hs] at k4; exact k4.elim
    | unresolved s => rw [hs] at k4; exact k4.elim
  obtain ⟨φ, -, hel⟩ := h.elastic
  have hwv := h.waves
  have hcap := h.capture
  have hfis := h.fission
  set k := neutronWaveNumber (waveConstant K.hbar neutronMass) A E
  have hf : 0 ≤ Real.pi / k ^ 2 := by positivity
  -- the partial waves
  have key : 0 ≤ (ws.map fun w => levelElastic p.spin E w.1 w.2).sum ∧
      0 ≤ (ws.map fun w => coupledCapture p.spin E w.1 w.2).sum ∧
      0 ≤ (ws.map fun w => coupledFission p.spin E w.1 w.2).sum ∧
      (ws.map fun w => coupledCapture p.spin E w.1 w.2).sum
        + (ws.map fun w => coupledFission p.spin E w.1 w.2).sum
        ≤ ∑ l ∈ Finset.range p.nlsc, ((p.lValues.filter fun lv => lv.l = l).map (givenFactor p.spin)).sum ∧
      (ws.map fun w => levelElastic p.spin E w.1 w.2).sum
        + (ws.map fun w => coupledCapture p.spin E w.1 w.2).sum
        + (ws.map fun w => coupledFission p.spin E w.1 w.2).sum
        ≤ 4 * ∑ l ∈ Finset.range p.nlsc,
          ((p.lValues.filter fun lv => lv.l = l).map (givenFactor p.spin)).sum := by
    clear hel hcap hfis h hmiss hA hd hp
    unfold LevelWaves at hwv
    generalize p.lValues = lvs at hwv hw ⊢
    induction hwv with
    | nil => simp
    | @cons lv w lvs ws h1 _ ih =>
      obtain ⟨i1, i2, i3, i4, i5⟩ := ih fun lv hlv => hw lv (List.mem_cons_of_mem _ hlv)
      have hsum : ∑ l ∈ Finset.range p.nlsc,
          (((lv :: lvs).filter fun lv => lv.l = l).map (givenFactor p.spin)).sum
          = (if lv.l < p.nlsc then givenFactor p.spin lv else 0) + ∑ l ∈ Finset.range p.nlsc,
            ((lvs.filter fun lv => lv.l = l).map (givenFactor p.spin)).sum := by
        have : ∀ l, (((lv :: lvs).filter fun lv => lv.l = l).map (givenFactor p.spin)).sum
            = (if lv.l = l then givenFactor p.spin lv else 0)
              + ((lvs.filter fun lv => lv.l = l).map (givenFactor p.spin)).sum := by
          intro l
          by_cases hl : lv.l = l
          · rw [List.filter_cons_of_pos (by simpa using hl), if_pos hl, List.map_cons, List.sum_cons]
          · rw [List.filter_cons_of_neg (by simpa using hl), if_neg hl, zero_add]
        simp only [this, Finset.sum_add_distrib, Finset.sum_ite_eq, Finset.mem_range]
      have hspins : w.2.map Coupled.J = lv.resonances.map ReichMooreResonance.spin ∧
          (∀ a ∈ w.2, 0 ≤ a.capture) ∧ (lv.l < p.nlsc ∨ lv.resonances = []) := by
        by_cases hr : lv.resonances = []
        · rw [if_pos hr] at h1
          rw [h1, hr]
          exact ⟨rfl, fun a ha => (List.not_mem_nil ha).elim, .inr rfl⟩
        · rw [if_neg hr] at h1
          obtain ⟨-, h2, channel, scattering, -, h3⟩ := h1
          refine ⟨level_spins h3.resonances, ?_, .inl h2⟩
          have h4 := h3.resonances
          have h5 := hw lv List.mem_cons_self
          generalize lv.resonances = rs at h4 h5
          generalize w.2 = as at h4
          clear h3 ih
          induction h4 with
          | nil => exact fun a ha => (List.not_mem_nil ha).elim
          | cons h6 _ ih =>
            intro a ha
            rcases List.mem_cons.mp ha with rfl | ha
            · rw [h6.capture]
              exact (h5 _ List.mem_cons_self).2
            · exact ih (fun r hr => h5 r (List.mem_cons_of_mem _ hr)) a ha
      obtain ⟨s1, s2, s3⟩ := hspins
      obtain ⟨w1, w2, w3, w4, w5⟩ := wave_limits (E := E) (w := w.1) hI s2
      have hg : ∑ J ∈ (w.2.map Coupled.J).toFinset, (neutronFactor p.spin |J| : ℝ)
          = if lv.l < p.nlsc then givenFactor p.spin lv else 0 := by
        rw [s1]
        rcases s3 with s3 | s3
        · rw [if_pos s3]
          rfl
        · unfold givenFactor
          rw [s3]
          simp
      rw [hg] at w4 w5
      simp only [List.map_cons, List.sum_cons]
      rw [hsum]
      exact ⟨by linarith, by linarith, by linarith, by linarith, by linarith⟩
  obtain ⟨k1, k2, k3, k4, k5⟩ := key
  have hall : ∑ l ∈ Finset.range p.nlsc, missingFactor p l + ∑ l ∈ Finset.range p.nlsc,
      ((p.lValues.filter fun lv => lv.l = l).map (givenFactor p.spin)).sum = (p.nlsc : ℝ) ^ 2 := by
    rw [← Finset.sum_add_distrib]
    have : ∀ n : ℕ, ∑ l ∈ Finset.range n, (2 * (l : ℝ) + 1) = (n : ℝ) ^ 2 := by
      intro n
      induction n with
      | zero => simp
      | succ n ih =>
        rw [Finset.sum_range_succ, ih]
        push_cast
        ring
    rw [← this]
    refine Finset.sum_congr rfl fun l _ => ?_
    unfold missingFactor
    ring
  have hm1 : 0 ≤ ∑ l ∈ Finset.range p.nlsc, missingFactor p l * (4 * Real.sin (φ l) ^ 2) :=
    Finset.sum_nonneg fun l hl => mul_nonneg (hmiss l (Finset.mem_range.mp hl)) (by positivity)
  have hm2 : ∑ l ∈ Finset.range p.nlsc, missingFactor p l * (4 * Real.sin (φ l) ^ 2)
      ≤ 4 * ∑ l ∈ Finset.range p.nlsc, missingFactor p l := by
    rw [Finset.mul_sum]
    refine Finset.sum_le_sum fun l hl => ?_
    have h1 := hmiss l (Finset.mem_range.mp hl)
    have h2 := Real.sin_sq_le_one (φ l)
    nlinarith
  have hm3 : 0 ≤ ∑ l ∈ Finset.range p.nlsc, missingFactor p l :=
    Finset.sum_nonneg fun l hl => hmiss l (Finset.mem_range.mp hl)
  -- the reported cross sections
  set el : ReactionID ⊕ LegacyID := .inl (.elastic (pairID incident target)) with hel'
  set ca : ReactionID ⊕ LegacyID := .inl (.transition (pairID incident target) "capture".toList)
  set fi : ReactionID ⊕ LegacyID := .inl (.transition (pairID incident target) "fission".toList)
  have hother : ∀ id, id ≠ el → id ≠ ca → id ≠ fi → (m id).getD 0 = 0 := by
    intro id e1 e2 e3
    cases id with
    | inl id =>
      have := h.other id (fun e => e1 (by rw [e])) (fun e => e2 (by rw [e])) fun e => e3 (by rw [e])
      rw [this]
      rfl
    | inr id =>
      rw [hleg]
      rfl
  have n1 : ca ≠ fi := by
    intro e
    have := ReactionID.transition.inj (Sum.inl.inj e)
    exact absurd this.2 (by decide)
  have n2 : el ≠ ca := fun e => by cases Sum.inl.inj e
  have n3 : el ≠ fi := fun e => by cases Sum.inl.inj e
  have p1 : 0 ≤ (m el).getD 0 := by
    rw [hel, Option.getD_some]
    exact mul_nonneg hf (add_nonneg k1 hm1)
  have p2 : 0 ≤ (m ca).getD 0 := by
    rw [hcap, Option.getD_some]
    exact mul_nonneg hf k2
  have p3 : 0 ≤ (m fi).getD 0 := by
    rw [hfis]
    exact mul_nonneg hf k3
  have hnn : ∀ id, 0 ≤ (m id).getD 0 := by
    intro id
    by_cases e1 : id = el
    · rw [e1]; exact p1
    by_cases e2 : id = ca
    · rw [e2]; exact p2
    by_cases e3 : id = fi
    · rw [e3]; exact p3
    rw [hother id e1 e2 e3]
  have hsub : ∀ ids : Finset (ReactionID ⊕ LegacyID), ∑ id ∈ ids, (m id).getD 0
      ≤ (if el ∈ ids then (m el).getD 0 else 0) + ((m ca).getD 0 + (m fi).getD 0) := by
    intro ids
    have e : ∑ id ∈ ids, (m id).getD 0 ≤ ∑ id ∈ ids, ((if id = el then (m el).getD 0 else 0)
        + ((if id = ca then (m ca).getD 0 else 0) + if id = fi then (m fi).getD 0 else 0)) := by
      refine Finset.sum_le_sum fun id _ => ?_
      by_cases e1 : id = el
      · rw [if_pos e1, if_neg (e1 ▸ n2), if_neg (e1 ▸ n3), e1]
        linarith
      rw [if_neg e1]
      by_cases e2 : id = ca
      · rw [if_pos e2, if_neg (e2 ▸ n1), e2]
        linarith
      rw [if_neg e2]
      by_cases e3 : id = fi
      · rw [if_pos e3, e3]
        linarith
      rw [if_neg e3, hother id e1 e2 e3]
      linarith
    refine e.trans ?_
    rw [Finset.sum_add_distrib, Finset.sum_add_distrib, Finset.sum_ite_eq', Finset.sum_ite_eq',
      Finset.sum_ite_eq']
    refine add_le_add (le_refl _) (add_le_add ?_ ?_) <;> split <;> first | exact le_refl _ | assumption
  refine ⟨hnn, fun ids => (hsub ids).trans ?_, fun ids hids => (hsub ids).trans ?_⟩
  · refine (add_le_add (b := (m el).getD 0) ?_ (le_refl _)).trans ?_
    · split
      · exact le_refl _
      · exact p1
    rw [hel, hcap, hfis, Option.getD_some, Option.getD_some, ← mul_add, ← mul_add, ← hall]
    have e : 4 * Real.pi / k ^ 2 = Real.pi / k ^ 2 * 4 := by ring
    rw [e, mul_assoc]
    refine mul_le_mul_of_nonneg_left ?_ hf
    linarith
  · rw [if_neg hids, zero_add, hcap, hfis, Option.getD_some, ← mul_add, ← hall]
    refine mul_le_mul_of_nonneg_left ?_ hf
    linarith

open Example in
/-- C74 applies to the example of C69 at energy 2. -/
example (K : Constants) (lib : CoulombLibrary) (tables : InterpolationLibrary) (reactions : ReactionLibrary)
    (initialBreitWigner : Channel → Verif.BreitWigner.Cache)
    (initial : (g : SpinGroup) → MatrixCache g.channels.length) (elementaryCharge : ℝ) (range : Range)
    (ht : range.type = 1 ∧ range.representation = 3) (hp : range.parameters = .reichMoore (evaluation 0))
    (hr : range.scatteringRadius = none) (hn : range.naps = 1) (hE : range.lower ≤ 2 ∧ 2 ≤ range.upper) :
    ∃ R m R', fromENDF K lib tables reactions initialBreitWigner initial 1 elementaryCharge "n".toList
        "Cl35".toList range = .ok R ∧ R.call K lib 2 = .ok (m, R') ∧
      ∑ id ∈ {.inl (.transition (pairID "n".toList "Cl35".toList) "capture".toList),
        .inl (.transition (pairID "n".toList "Cl35".toList) "fission".toList)}, (m id).getD 0
        ≤ Real.pi / neutronWaveNumber (waveConstant K.hbar 1) 35 2 ^ 2 * (evaluation 0).nlsc ^ 2 := by
  obtain ⟨R, h1, h2⟩ := C69_accepted (K := K) (lib := lib) (tables := tables) (reactions := reactions)
    (initialBreitWigner := initialBreitWigner) (initial := initial) (elementaryCharge := elementaryCharge)
    (incident := "n".toList) (target := "Cl35".toList) (nro := none) (neutronMass := 1) (A := 35) ht hp
    (by rw [hr]; exact .none) (by rw [hn]; exact physical)
  rw [hn] at h2
  obtain ⟨⟨m, R'⟩, hv⟩ := h2 2 two_ne_zero (radiiAt (by norm_num [evaluation]) _ _) (by
      intro lv hlv
      refine radiiAt ?_ _ _
      simp only [evaluation, List.mem_cons, List.not_mem_nil, or_false] at hlv
      rcases hlv with rfl | rfl <;> norm_num [lengthOf, evaluation]) (by
      intro lv hlv r hr
      simp only [evaluation, List.mem_cons, List.not_mem_nil, or_false] at hlv
      rcases hlv with rfl | rfl <;> simp only [List.mem_cons, List.not_mem_nil, or_false] at hr <;>
        rcases hr with rfl | hr <;> norm_num <;> rcases hr with rfl | rfl <;> norm_num)
  refine ⟨R, m, R', h1, hv, (C74_reich_moore h1 hp (by rw [hr, hn]; simp [prescribedRadii])
    physical.spin physical.ratio (by
      intro lv hlv r hr
      simp only [evaluation, List.mem_cons, List.not_mem_nil, or_false] at hlv
      rcases hlv with rfl | rfl <;> simp only [List.mem_cons, List.not_mem_nil, or_false] at hr
      · rcases hr with rfl | rfl | rfl <;> norm_num
      · rcases hr with rfl | rfl <;> norm_num) physical.different two_pos.le hE hv).2.2 _ ?_⟩
  rw [Finset.mem_insert, Finset.mem_singleton]
  rintro (e | e) <;> cases Sum.inl.inj e

end Verif.Endf
