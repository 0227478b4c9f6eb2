import Verif.Spec.PerturbationLegacy
import Verif.Props.LegacyFormula
import Verif.Lemmas.ContinuityLegacy

/-!
# Property C80 for Breit-Wigner ranges: cross sections are continuous functions of the resonance parameters
-/

namespace Verif.BreitWigner

open Filter Topology Complex Spec

/-- The parameters as a point. -/
def point (x : Parameters) : Fin 8 → ℝ :=
  ![x.energy, x.elastic, x.capture, x.fission, x.competition, x.penetrability,
    x.competitivePenetrability, x.shiftFactor]

/-- The filter of parameters close to those given. -/
def near (x : Parameters) : Filter Parameters := comap point (𝓝 (point x))

theorem near_field (x : Parameters) (i : Fin 8) : Tendsto (fun y => point y i) (near x) (𝓝 (point x i)) :=
  ((continuous_apply i).tendsto (point x)).comp tendsto_comap

theorem near_mem {x : Parameters} {s : Set Parameters} (h : s ∈ near x) :
    ∃ δ > 0, ∀ y, NearParameters δ x y → y ∈ s := by
  obtain ⟨t, ht, hts⟩ := mem_comap.mp h
  obtain ⟨δ, hδ, hb⟩ := Metric.mem_nhds_iff.mp ht
  refine ⟨δ, hδ, fun y hy => hts (hb ?_)⟩
  rw [Metric.mem_ball, dist_pi_lt_iff hδ]
  obtain ⟨h0, h1, h2, h3, h4, h5, h6, h7⟩ := hy
  intro i
  rw [Real.dist_eq]
  fin_cases i <;> assumption

section

variable (x : Parameters) {E p q s φ : ℝ}

theorem energy_near : Tendsto Parameters.energy (near x) (𝓝 x.energy) := near_field x 0

theorem elastic_near : Tendsto Parameters.elastic (near x) (𝓝 x.elastic) := near_field x 1

theorem capture_near : Tendsto Parameters.capture (near x) (𝓝 x.capture) := near_field x 2

theorem fission_near : Tendsto Parameters.fission (near x) (𝓝 x.fission) := near_field x 3

theorem competition_near : Tendsto Parameters.competition (near x) (𝓝 x.competition) := near_field x 4

theorem penetrability_near : Tendsto Parameters.penetrability (near x) (𝓝 x.penetrability) :=
  near_field x 5

theorem competitivePenetrability_near :
    Tendsto Parameters.competitivePenetrability (near x) (𝓝 x.competitivePenetrability) := near_field x 6

theorem shiftFactor_near : Tendsto Parameters.shiftFactor (near x) (𝓝 x.shiftFactor) := near_field x 7

variable {x}

theorem neutronWidth_near (hP : x.penetrability ≠ 0) (p : ℝ) :
    Tendsto (fun y : Parameters => y.neutronWidth p) (near x) (𝓝 (x.neutronWidth p)) :=
  ((elastic_near x).mul_const p).div (penetrability_near x) hP

theorem totalWidth_near (hP : x.penetrability ≠ 0) (hQ : x.competitivePenetrability ≠ 0) (p q : ℝ) :
    Tendsto (fun y : Parameters => y.totalWidth p q) (near x) (𝓝 (x.totalWidth p q)) :=
  (((neutronWidth_near hP p).add (capture_near x)).add (fission_near x)).add
    (((competition_near x).mul_const q).div (competitivePenetrability_near x) hQ)

theorem position_near (hP : x.penetrability ≠ 0) (s : ℝ) :
    Tendsto (fun y : Parameters => y.position s) (near x) (𝓝 (x.position s)) :=
  (energy_near x).add ((((shiftFactor_near x).sub_const s).div ((penetrability_near x).const_mul 2)
    (mul_ne_zero two_ne_zero hP)).mul (elastic_near x))

theorem denominator_near (hP : x.penetrability ≠ 0) (hQ : x.competitivePenetrability ≠ 0) (E p q s : ℝ) :
    Tendsto (fun y : Parameters => y.denominator E p q s) (near x) (𝓝 (x.denominator E p q s)) :=
  (((position_near hP s).const_sub E).pow 2).add (((totalWidth_near hP hQ p q).pow 2).div_const 4)

theorem elasticTerm_near (hP : x.penetrability ≠ 0) (hQ : x.competitivePenetrability ≠ 0)
    (hd : x.denominator E p q s ≠ 0) :
    Tendsto (fun y : Parameters => y.elasticTerm E p q s φ) (near x) (𝓝 (x.elasticTerm E p q s φ)) := by
  have n := neutronWidth_near hP p
  refine Tendsto.div (((n.pow 2).sub (((n.const_mul 2).mul (totalWidth_near hP hQ p q)).mul_const _)).add
    (((((position_near hP s).const_sub E).const_mul 2).mul n).mul_const _)) (denominator_near hP hQ E p q s) hd

theorem captureTerm_near (hP : x.penetrability ≠ 0) (hQ : x.competitivePenetrability ≠ 0)
    (hd : x.denominator E p q s ≠ 0) :
    Tendsto (fun y : Parameters => y.captureTerm E p q s) (near x) (𝓝 (x.captureTerm E p q s)) :=
  ((neutronWidth_near hP p).mul (capture_near x)).div (denominator_near hP hQ E p q s) hd

theorem fissionTerm_near (hP : x.penetrability ≠ 0) (hQ : x.competitivePenetrability ≠ 0)
    (hd : x.denominator E p q s ≠ 0) :
    Tendsto (fun y : Parameters => y.fissionTerm E p q s) (near x) (𝓝 (x.fissionTerm E p q s)) :=
  ((neutronWidth_near hP p).mul (fission_near x)).div (denominator_near hP hQ E p q s) hd

theorem levelTerm_near (hP : x.penetrability ≠ 0) (hQ : x.competitivePenetrability ≠ 0)
    (hd : x.denominator E p q s ≠ 0) :
    Tendsto (fun y : Parameters => (y.neutronWidth p : ℂ)
        / ((y.position s : ℂ) - E - I * y.totalWidth p q / 2)) (near x)
      (𝓝 ((x.neutronWidth p : ℂ) / ((x.position s : ℂ) - E - I * x.totalWidth p q / 2))) := by
  have c : ∀ {f : Parameters → ℝ} {a : ℝ}, Tendsto f (near x) (𝓝 a) →
      Tendsto (fun y => (f y : ℂ)) (near x) (𝓝 (a : ℂ)) := fun h =>
    (continuous_ofReal.tendsto _).comp h
  refine (c (neutronWidth_near hP p)).div ((((c (position_near hP s)).sub_const _)).sub
    (((c (totalWidth_near hP hQ p q)).const_mul I).div_const 2)) fun h0 => hd ?_
  have h1 := congrArg re h0
  have h2 := congrArg im h0
  simp at h1 h2
  unfold Parameters.denominator
  have h3 : x.position s = E := by linarith
  rw [h3, h2]
  ring

end

/-- The filter of lists of parameters close to those given. -/
def nearby : List Parameters → Filter (List Parameters)
  | [] => pure []
  | x :: xs => map (fun y => y.1 :: y.2) (near x ×ˢ nearby xs)

theorem nearby_mem {xs : List Parameters} : ∀ {s : Set (List Parameters)}, s ∈ nearby xs →
    ∃ δ > 0, ∀ ys, List.Forall₂ (NearParameters δ) xs ys → ys ∈ s := by
  induction xs with
  | nil =>
    intro s h
    refine ⟨1, one_pos, fun ys hys => ?_⟩
    cases hys
    exact mem_pure.mp h
  | cons x xs ih =>
    intro s h
    obtain ⟨t, ht, u, hu, htu⟩ := mem_prod_iff.mp (mem_map.mp h)
    obtain ⟨δ, hδ, h1⟩ := near_mem ht
    obtain ⟨δ', hδ', h2⟩ := ih hu
    refine ⟨min δ δ', lt_min hδ hδ', fun ys hys => ?_⟩
    cases hys with
    | cons hy hys =>
      refine @htu (_, _) ⟨h1 _ ?_, h2 _ ?_⟩
      · obtain ⟨a0, a1, a2, a3, a4, a5, a6, a7⟩ := hy
        have m := min_le_left δ δ'
        exact ⟨a0.trans_le m, a1.trans_le m, a2.trans_le m, a3.trans_le m, a4.trans_le m, a5.trans_le m,
          a6.trans_le m, a7.trans_le m⟩
      · refine hys.imp fun a b hab => ?_
        obtain ⟨a0, a1, a2, a3, a4, a5, a6, a7⟩ := hab
        have m := min_le_right δ δ'
        exact ⟨a0.trans_le m, a1.trans_le m, a2.trans_le m, a3.trans_le m, a4.trans_le m, a5.trans_le m,
          a6.trans_le m, a7.trans_le m⟩

theorem sum_near {M : Type*} [AddMonoid M] [TopologicalSpace M] [ContinuousAdd M] {f : Parameters → M}
    {xs : List Parameters} (h : ∀ x ∈ xs, Tendsto f (near x) (𝓝 (f x))) :
    Tendsto (fun ys => (List.map f ys).sum) (nearby xs) (𝓝 (xs.map f).sum) := by
  induction xs with
  | nil => exact tendsto_pure_nhds _ _
  | cons x xs ih =>
    simp only [List.map_cons, List.sum_cons, nearby]
    rw [tendsto_map'_iff]
    exact ((h x List.mem_cons_self).comp tendsto_fst).add
      ((ih fun y hy => h y (List.mem_cons_of_mem _ hy)).comp tendsto_snd)

theorem all_near {P : Parameters → Prop} {xs : List Parameters} (h : ∀ x ∈ xs, ∀ᶠ y in near x, P y) :
    ∀ᶠ ys in nearby xs, ∀ y ∈ ys, P y := by
  induction xs with
  | nil =>
    show ∀ᶠ ys in pure [], ∀ y ∈ ys, P y
    simp
  | cons x xs ih =>
    show ∀ᶠ ys in map _ _, _
    rw [eventually_map]
    filter_upwards [tendsto_fst.eventually (h x List.mem_cons_self),
      tendsto_snd.eventually (ih fun y hy => h y (List.mem_cons_of_mem _ hy))] with y h1 h2 z hz
    rcases List.mem_cons.mp hz with rfl | hz
    · exact h1
    · exact h2 z hz

/-! ## Spin groups -/

/-- What a group with these resonances adds to elastic scattering, apart from the factor `π/k² g`. -/
noncomputable def elasticSum (E p q s φ : ℝ) : Formalism → List Parameters → ℝ
  | .singleLevel, xs => (xs.map fun x => x.elasticTerm E p q s φ).sum
  | .multiLevel, xs => normSq (1 - levelCollision φ E (xs.map fun x =>
      ⟨x.neutronWidth p, x.totalWidth p q, x.position s⟩)) - 4 * Real.sin φ ^ 2

/-- What a group with these resonances adds. -/
noncomputable def contribution (channel : Channel) (factor E p q s φ : ℝ) (formalism : Formalism)
    (xs : List Parameters) (id : LegacyID) : ℝ :=
  if id = legacyID channel .elastic then factor * elasticSum E p q s φ formalism xs
  else if id = legacyID channel .capture then factor * (xs.map fun x => x.captureTerm E p q s).sum
  else if id = legacyID channel .fission then factor * (xs.map fun x => x.fissionTerm E p q s).sum
  else 0

theorem made_ne_zero {x : Parameters} {r : Resonance} (h : Made x r) :
    x.penetrability ≠ 0 ∧ x.competitivePenetrability ≠ 0 := by
  unfold Made makeResonance at h
  split at h
  · cases h
  · rename_i hne
    rwa [not_or] at hne

theorem made_all {xs : List Parameters} {rs : List Resonance} (h : List.Forall₂ Made xs rs) :
    (∀ x ∈ xs, x.penetrability ≠ 0 ∧ x.competitivePenetrability ≠ 0) ∧ ∀ E p q s,
      (∀ x ∈ xs, x.denominator E p q s ≠ 0) ↔ ∀ r ∈ rs,
        (E - r.energyPrime s) * (E - r.energyPrime s) + 0.25 * r.totalAt p q * r.totalAt p q ≠ 0 := by
  induction h with
  | nil => simp
  | cons h1 _ ih =>
    simp only [List.forall_mem_cons]
    refine ⟨⟨made_ne_zero h1, ih.1⟩, fun E p q s => ?_⟩
    rw [ih.2 E p q s, (made_values h1 E p q s).2.2.2.2.2]

theorem contribution_near {channel : Channel} {factor E p q s φ : ℝ} {formalism : Formalism}
    {xs : List Parameters} (h : ∀ x ∈ xs, x.penetrability ≠ 0 ∧ x.competitivePenetrability ≠ 0)
    (hd : ∀ x ∈ xs, x.denominator E p q s ≠ 0) (id : LegacyID) :
    Tendsto (fun ys => contribution channel factor E p q s φ formalism ys id) (nearby xs)
      (𝓝 (contribution channel factor E p q s φ formalism xs id)) := by
  unfold contribution
  split_ifs
  · refine Tendsto.const_mul _ ?_
    cases formalism with
    | singleLevel => exact sum_near fun x hx => elasticTerm_near (h x hx).1 (h x hx).2 (hd x hx)
    | multiLevel =>
      have e : elasticSum E p q s φ .multiLevel = fun ys => normSq (1 - exp (-(2 * I * φ))
          * (1 + I * (ys.map fun y => (y.neutronWidth p : ℂ)
            / ((y.position s : ℂ) - E - I * y.totalWidth p q / 2)).sum)) - 4 * Real.sin φ ^ 2 := by
        funext ys
        rw [elasticSum, levelCollision, levelSum, List.map_map]
        rfl
      rw [e]
      refine ((continuous_normSq.tendsto _).comp (Tendsto.const_sub 1 (Tendsto.const_mul _
        (Tendsto.const_add 1 (Tendsto.const_mul I ?_))))).sub_const _
      exact sum_near fun x hx => levelTerm_near (h x hx).1 (h x hx).2 (hd x hx)
  · exact Tendsto.const_mul _ (sum_near fun x hx => captureTerm_near (h x hx).1 (h x hx).2 (hd x hx))
  · exact Tendsto.const_mul _ (sum_near fun x hx => fissionTerm_near (h x hx).1 (h x hx).2 (hd x hx))
  · exact tendsto_const_nhds

variable {K : Constants} {lib : CoulombLibrary} {E : ℝ} {formalism : Formalism}

theorem values_unique {g : SpinGroup} {p q s φ p' q' s' φ' : ℝ} (h : Values K lib g E p q s φ)
    (h1 : g.channel.penetrability K lib E = .ok p')
    (h2 : if g.qx = 0 then q' = p' else g.channel.penetrability K lib (E - g.qx) = .ok q')
    (h3 : g.channel.shiftFactor K lib E = .ok s') (h4 : g.channel.phaseShift K lib E = .ok φ') :
    p = p' ∧ q = q' ∧ s = s' ∧ φ = φ' := by
  have e1 : p = p' := Except.ok.inj (h.penetrability.symm.trans h1)
  refine ⟨e1, ?_, Except.ok.inj (h.shiftFactor.symm.trans h3), Except.ok.inj (h.phaseShift.symm.trans h4)⟩
  have h5 := h.competition
  unfold SpinGroup.competitionPenetrability at h5
  by_cases hq : g.qx = 0
  · rw [if_pos hq] at h2
    rw [if_neg (by simpa using hq)] at h5
    rw [h2, ← e1]
    exact (Except.ok.inj h5).symm
  · rw [if_neg hq] at h2
    rw [if_pos hq] at h5
    exact Except.ok.inj (h5.symm.trans h2)

/-- The cross sections of a group in terms of the parameters. -/
theorem parameters_values {g : SpinGroup} {xs : List Parameters} {p q s φ : ℝ}
    (hmade : List.Forall₂ Made xs g.resonances) (hV : Values K lib g E p q s φ) (start : LegacyMap) :
    ∃ m g', evaluate K lib E formalism g start = .ok (m, g') ∧ g'.channel = g.channel ∧
      ∀ id, (m id).getD 0 = (start id).getD 0 + contribution g.channel
        (Real.pi / g.channel.waveNumber K E ^ 2 * g.channel.spinFactor) E p q s φ formalism xs id := by
  have n1 : ∀ k k' : LegacyKind, k ≠ k' → legacyID g.channel k ≠ legacyID g.channel k' := fun k k' hk h =>
    hk (legacyID_inj h)
  have h1 := evaluateSLBW_of hV start
  obtain ⟨p', q', s', φ', a1, a2, a3, a4, b1, b2, b3, b4⟩ := C57_single_level hmade h1
  obtain ⟨rfl, rfl, rfl, rfl⟩ := values_unique hV a1 a2 a3 a4
  have rest : ∀ id, id ≠ legacyID g.channel .elastic →
      ((slbwMap K g E (components g E p q s φ) start) id).getD 0 = (start id).getD 0 + contribution g.channel
        (Real.pi / g.channel.waveNumber K E ^ 2 * g.channel.spinFactor) E p q s φ formalism xs id := by
    intro id hid
    unfold contribution
    rw [if_neg hid]
    by_cases hc : id = legacyID g.channel .capture
    · rw [if_pos hc, hc, b2]
      rfl
    · rw [if_neg hc]
      by_cases hf : id = legacyID g.channel .fission
      · rw [if_pos hf, hf, b3]
        split_ifs with h0
        · rw [h0]
          simp
        · rfl
      · rw [if_neg hf, b4 id hid hc hf, add_zero]
  cases formalism with
  | singleLevel =>
    refine ⟨_, _, h1, rfl, fun id => ?_⟩
    by_cases hid : id = legacyID g.channel .elastic
    · rw [hid, b1, contribution, if_pos rfl]
      rfl
    · exact rest id hid
  | multiLevel =>
    have h2 := evaluateMLBW_of hV start
    refine ⟨_, _, h2, rfl, fun id => ?_⟩
    by_cases hid : id = legacyID g.channel .elastic
    · obtain ⟨p', q', s', φ', a1, a2, a3, a4, c1⟩ := C57_multi_level_elastic hmade h2
      obtain ⟨rfl, rfl, rfl, rfl⟩ := values_unique hV a1 a2 a3 a4
      rw [hid, c1, contribution, if_pos rfl]
      rfl
    · rw [LegacyMap.add_other _ _ hid]
      exact rest id hid

theorem evaluate_evaluable {g g' : SpinGroup} {m m' : LegacyMap}
    (h : evaluate K lib E formalism g m = .ok (m', g')) : ∃ p q s φ, Values K lib g E p q s φ := by
  cases formalism with
  | singleLevel =>
    obtain ⟨p, q, s, φ, hV, -⟩ := evaluateSLBW_ok h
    exact ⟨p, q, s, φ, hV⟩
  | multiLevel =>
    obtain ⟨p, q, s, φ, hV, -⟩ := evaluateMLBW_ok h
    exact ⟨p, q, s, φ, hV⟩

/-- The second group has the channel of the first and nearly its resonance parameters. -/
structure NearGroup (δ : ℝ) (xs : List Parameters) (g g' : SpinGroup) : Prop where
  channel : g'.channel = g.channel
  qx : g'.qx = g.qx
  resonances : ∃ ys, List.Forall₂ Made ys g'.resonances ∧ List.Forall₂ (NearParameters δ) xs ys

theorem near_mono {δ δ' : ℝ} (m : δ ≤ δ') {x y : Parameters} (h : NearParameters δ x y) :
    NearParameters δ' x y := by
  obtain ⟨a0, a1, a2, a3, a4, a5, a6, a7⟩ := h
  exact ⟨a0.trans_le m, a1.trans_le m, a2.trans_le m, a3.trans_le m, a4.trans_le m, a5.trans_le m,
    a6.trans_le m, a7.trans_le m⟩

theorem NearGroup.mono {δ δ' : ℝ} (m : δ ≤ δ') {xs : List Parameters} {g g' : SpinGroup}
    (h : NearGroup δ xs g g') : NearGroup δ' xs g g' := by
  obtain ⟨h1, h2, ys, h3, h4⟩ := h
  exact ⟨h1, h2, ys, h3, h4.imp fun _ _ => near_mono m⟩

/-- What nearby groups add to the cross sections is close to what the group adds, whatever there was before. -/
theorem group_near {g g₁ : SpinGroup} {xs : List Parameters} (hmade : List.Forall₂ Made xs g.resonances)
    {m m₁ : LegacyMap} (h : evaluate K lib E formalism g m = .ok (m₁, g₁)) {ε : ℝ} (hε : 0 < ε) :
    g₁.channel = g.channel ∧ ∃ δ > 0, ∀ g', NearGroup δ xs g g' → ∀ start, ∃ m' g₁',
      evaluate K lib E formalism g' start = .ok (m', g₁') ∧ g₁'.channel = g.channel ∧
      ∀ id, |((m' id).getD 0 - (start id).getD 0) - ((m₁ id).getD 0 - (m id).getD 0)| < ε := by
  obtain ⟨p, q, s, φ, hV⟩ := evaluate_evaluable h
  obtain ⟨m₂, g₂, e1, e2, e3⟩ := parameters_values (formalism := formalism) hmade hV m
  rw [h] at e1
  obtain ⟨rfl, rfl⟩ := Prod.mk.inj (Except.ok.inj e1)
  refine ⟨e2, ?_⟩
  obtain ⟨h1, h2⟩ := made_all hmade
  have hd := (h2 E p q s).mpr hV.denominator
  set factor := Real.pi / g.channel.waveNumber K E ^ 2 * g.channel.spinFactor with hfactor
  have hden : ∀ᶠ ys in nearby xs, ∀ y ∈ ys, Parameters.denominator y E p q s ≠ 0 :=
    all_near fun x hx => (denominator_near (h1 x hx).1 (h1 x hx).2 E p q s).eventually_ne (hd x hx)
  have hclose : ∀ id, ∀ᶠ ys in nearby xs, |contribution g.channel factor E p q s φ formalism ys id
      - contribution g.channel factor E p q s φ formalism xs id| < ε := by
    intro id
    have := (contribution_near (channel := g.channel) (factor := factor) (formalism := formalism) (φ := φ)
      h1 hd id).eventually (Metric.ball_mem_nhds _ hε)
    filter_upwards [this] with ys hys
    rwa [← Real.dist_eq]
  obtain ⟨δ, hδ, hall⟩ := nearby_mem ((hden.and (hclose (legacyID g.channel .elastic))).and
    ((hclose (legacyID g.channel .capture)).and (hclose (legacyID g.channel .fission))))
  refine ⟨δ, hδ, fun g' hg' start => ?_⟩
  obtain ⟨hc, hqx, ys, hys, hn⟩ := hg'
  obtain ⟨⟨k0, k1⟩, k2, k3⟩ := hall ys hn
  have hV' : Values K lib g' E p q s φ := by
    refine ⟨by rw [hc]; exact hV.penetrability, ?_, by rw [hc]; exact hV.shiftFactor,
      by rw [hc]; exact hV.phaseShift, by rw [hc]; exact hV.waveNumber,
      ((made_all hys).2 E p q s).mp k0⟩
    have := hV.competition
    unfold SpinGroup.competitionPenetrability at this ⊢
    rwa [hc, hqx]
  obtain ⟨m', g₁', f1, f2, f3⟩ := parameters_values (formalism := formalism) hys hV' start
  rw [hc, ← hfactor] at f3
  refine ⟨m', g₁', f1, f2.trans hc, fun id => ?_⟩
  rw [f3, e3, add_sub_cancel_left, add_sub_cancel_left]
  by_cases i1 : id = legacyID g.channel .elastic
  · rw [i1]; exact k1
  by_cases i2 : id = legacyID g.channel .capture
  · rw [i2]; exact k2
  by_cases i3 : id = legacyID g.channel .fission
  · rw [i3]; exact k3
  · unfold contribution
    rw [if_neg i1, if_neg i2, if_neg i3, if_neg i1, if_neg i2, if_neg i3]
    simpa using hε

/-- C80 for a group of Breit-Wigner resonances: if it can be evaluated at an energy then, for every tolerance,
all groups with the same channel and sufficiently close resonance parameters can be evaluated there, and their
cross sections are within the tolerance. -/
theorem C80_spin_group {g g₁ : SpinGroup} {xs : List Parameters}
    (hmade : List.Forall₂ Made xs g.resonances) {start m : LegacyMap}
    (h : evaluate K lib E formalism g start = .ok (m, g₁)) {ε : ℝ} (hε : 0 < ε) :
    ∃ δ > 0, ∀ g', NearGroup δ xs g g' → ∃ m' g₁', evaluate K lib E formalism g' start = .ok (m', g₁') ∧
      ∀ id, |(m' id).getD 0 - (m id).getD 0| < ε := by
  obtain ⟨-, δ, hδ, hall⟩ := group_near hmade h hε
  refine ⟨δ, hδ, fun g' hg' => ?_⟩
  obtain ⟨m', g₁', e1, -, e2⟩ := hall g' hg' start
  refine ⟨m', g₁', e1, fun id => ?_⟩
  have := e2 id
  rwa [sub_sub_sub_cancel_right] at this

/-- Nearby resonances exist: the constructor accepts them. -/
theorem C80_accepted {xs : List Parameters} {rs : List Resonance} (hmade : List.Forall₂ Made xs rs) :
    ∃ δ > 0, ∀ ys, List.Forall₂ (NearParameters δ) xs ys → ∃ rs', List.Forall₂ Made ys rs' := by
  have h : ∀ᶠ ys in nearby xs, ∀ y ∈ ys, Parameters.penetrability y ≠ 0
      ∧ Parameters.competitivePenetrability y ≠ 0 := by
    refine all_near fun x hx => ?_
    obtain ⟨h1, h2⟩ := (made_all hmade).1 x hx
    exact ((penetrability_near x).eventually_ne h1).and ((competitivePenetrability_near x).eventually_ne h2)
  obtain ⟨δ, hδ, hall⟩ := nearby_mem h
  refine ⟨δ, hδ, fun ys hys => ?_⟩
  have hne : ∀ y ∈ ys, y.penetrability ≠ 0 ∧ y.competitivePenetrability ≠ 0 := hall ys hys
  clear hys hall
  induction ys with
  | nil => exact ⟨[], .nil⟩
  | cons y ys ih =>
    obtain ⟨rs', h'⟩ := ih fun z hz => hne z (List.mem_cons_of_mem _ hz)
    obtain ⟨h1, h2⟩ := hne y List.mem_cons_self
    exact ⟨_, .cons (if_neg (not_or.mpr ⟨h1, h2⟩)) h'⟩

open LegacySystem in
theorem groups_near {data : List (List Parameters)} {gs : List SpinGroup}
    (hmade : List.Forall₂ (fun xs g => List.Forall₂ Made xs g.resonances) data gs) :
    ∀ {m m₁ : LegacyMap} {gs₁ : List SpinGroup},
      evaluateGroups (evaluate K lib E formalism) gs m = .ok (m₁, gs₁) → ∀ {ε : ℝ}, 0 < ε →
      gs₁.map SpinGroup.channel = gs.map SpinGroup.channel ∧
      ∃ δ > 0, ∀ hs, List.Forall₂ (fun x g' => NearGroup δ x.1 x.2 g') (data.zip gs) hs →
        ∀ start, ∃ m' hs', evaluateGroups (evaluate K lib E formalism) hs start = .ok (m', hs') ∧
          hs'.map SpinGroup.channel = gs.map SpinGroup.channel ∧
          ∀ id, |((m' id).getD 0 - (start id).getD 0) - ((m₁ id).getD 0 - (m id).getD 0)| < ε := by
  induction hmade with
  | nil =>
    intro m m₁ gs₁ h ε hε
    cases h
    refine ⟨rfl, 1, one_pos, fun hs h start => ?_⟩
    cases h
    exact ⟨start, [], rfl, rfl, fun id => by simpa using hε⟩
  | cons hg _ ih =>
    intro m m₁ gs₁ h ε hε
    obtain ⟨n, g₁, rest, a, b, rfl⟩ := evaluateGroups_cons_ok.mp h
    obtain ⟨c1, δ, hδ, c2⟩ := group_near hg a (half_pos hε)
    obtain ⟨d1, δ', hδ', d2⟩ := ih b (half_pos hε)
    refine ⟨by rw [List.map_cons, List.map_cons, c1, d1], min δ δ', lt_min hδ hδ', fun hs hhs start => ?_⟩
    rw [List.zip_cons_cons] at hhs
    cases hhs with
    | cons e1 e2 =>
      obtain ⟨m', g', f1, f2, f3⟩ := c2 _ (e1.mono (min_le_left _ _)) start
      obtain ⟨m'', hs', f4, f5, f6⟩ := d2 _ (e2.imp fun _ _ h => h.mono (min_le_right _ _)) m'
      refine ⟨m'', g' :: hs', evaluateGroups_cons_ok.mpr ⟨m', g', hs', f1, f4, rfl⟩,
        by rw [List.map_cons, List.map_cons, f2, f5], fun id => ?_⟩
      have i1 := abs_lt.mp (f3 id)
      have i2 := abs_lt.mp (f6 id)
      rw [abs_lt]
      constructor <;> linarith [i1.1, i1.2, i2.1, i2.2]

/-- C80 for a compound system of Breit-Wigner groups. -/
theorem C80_system {data : List (List Parameters)} {s s₁ : LegacySystem SpinGroup}
    (hmade : List.Forall₂ (fun xs g => List.Forall₂ Made xs g.resonances) data s.groups)
    {start m : LegacyMap}
    (h : s.evaluate K lib SpinGroup.channel (evaluate K lib E formalism) E start = .ok (m, s₁))
    {ε : ℝ} (hε : 0 < ε) :
    ∃ δ > 0, ∀ s' : LegacySystem SpinGroup, s'.lmax = s.lmax →
      List.Forall₂ (fun x g' => NearGroup δ x.1 x.2 g') (data.zip s.groups) s'.groups →
      ∃ m' s₁', s'.evaluate K lib SpinGroup.channel (evaluate K lib E formalism) E start = .ok (m', s₁') ∧
        ∀ id, |(m' id).getD 0 - (m id).getD 0| < ε := by
  obtain ⟨n₁, f₁, r₁, R, v, a₁, -, b, hk, c, rfl⟩ := LegacySystem.evaluate_ok h
  obtain ⟨d1, δ, hδ, d2⟩ := groups_near hmade a₁ hε
  refine ⟨δ, hδ, fun s' hl hs' => ?_⟩
  obtain ⟨m', hs, e1, e2, e3⟩ := d2 _ hs' start
  rw [← d1, List.map_cons] at e2
  cases hs with
  | nil => cases e2
  | cons f₂ r₂ =>
    rw [List.map_cons] at e2
    have e := (List.cons.inj e2).1
    rw [← e] at b hk c
    rw [← hl] at c
    refine ⟨_, _, LegacySystem.evaluate_of e1 b hk c, fun id => ?_⟩
    rw [LegacyMap.add_getD, LegacyMap.add_getD, e]
    have := e3 id
    rw [sub_sub_sub_cancel_right] at this
    rwa [add_sub_add_right_eq_sub]

/-- A group of two resonances under the multi-level formalism, and those with a slightly different capture
width: a case of the theorem. -/
example (lib : CoulombLibrary) (m : LegacyMap) : ∃ m₀ g₀, evaluate Verif.Example.constants lib 2 .multiLevel
      (Example.sGroup 1 [Example.resonance, Example.broad]) m = .ok (m₀, g₀) ∧
    ∀ ε > 0, ∃ δ > 0, ∀ c, |c - Example.resonance.capture| < δ → ∃ m' g',
      evaluate Verif.Example.constants lib 2 .multiLevel
        (Example.sGroup 1 [{ Example.resonance with capture := c }, Example.broad]) m = .ok (m', g') ∧
      ∀ id, |(m' id).getD 0 - (m₀ id).getD 0| < ε := by
  have hV := Example.sValues lib 1 [Example.resonance, Example.broad] (by
    intro r hr
    simp only [List.mem_cons, List.not_mem_nil, or_false] at hr
    rcases hr with rfl | rfl <;> norm_num [Example.resonance, Example.broad])
  have made : ∀ r : Resonance, r.elasticToPenetrability = r.elastic → r.competitionToPenetrability =
      r.competition → r.penetrabilityField = none → Made ⟨r.energy, r.elastic, r.capture, r.fission,
        r.competition, 1, 1, r.shiftfactor⟩ r := by
    rintro ⟨⟩ h1 h2 h3
    simp only at h1 h2 h3
    subst h1 h2 h3
    simp [Made, makeResonance]
  have made' : ∀ c, Made _ { Example.resonance with capture := c } := fun c =>
    made { Example.resonance with capture := c } (by norm_num [Example.resonance])
      (by norm_num [Example.resonance]) rfl
  have broad := made Example.broad (by norm_num [Example.broad]) (by norm_num [Example.broad]) rfl
  refine ⟨_, _, evaluateMLBW_of hV m, fun ε hε => ?_⟩
  obtain ⟨δ, hδ, h⟩ := C80_spin_group (formalism := .multiLevel) (g := Example.sGroup 1 [Example.resonance, Example.broad])
    (.cons (made' Example.resonance.capture) (.cons broad .nil)) (evaluateMLBW_of hV m) hε
  refine ⟨δ, hδ, fun c hc => h _ ⟨rfl, rfl, _, .cons (made' c) (.cons broad .nil), .cons ?_ (.cons ?_ .nil)⟩⟩
  · constructor <;> first | exact hc | simpa using hδ
  · constructor <;> simpa using hδ

end Verif.BreitWigner
