import Verif.Lemmas.Continuity
import Verif.Props.LegacyResolved
import Mathlib.Algebra.Order.BigOperators.Group.List

/-!
# Lemmas on continuity in the energy: Breit-Wigner and unresolved systems
-/

namespace Verif

open Filter Topology Complex

variable {K : Constants} {lib : CoulombLibrary} {E₀ : ℝ}

/-! ## Sums -/

theorem sum_map_continuous {α : Type*} (l : List α) {f : α → ℝ → ℝ}
    (h : ∀ x ∈ l, ContinuousAt (f x) E₀) : ContinuousAt (fun E => (l.map fun x => f x E).sum) E₀ := by
  induction l with
  | nil => simpa using continuousAt_const
  | cons x l ih =>
    simp only [List.map_cons, List.sum_cons]
    exact (h x List.mem_cons_self).add (ih fun y hy => h y (List.mem_cons_of_mem _ hy))

theorem hsP_pos {l : ℕ} (hl : l ≤ 4) {x : ℝ} (hx : 0 < x) : 0 < hsP l x := by
  interval_cases l <;> simp only [hsP] <;> positivity

/-! ## Phases -/

theorem sin_sq_of_exp (φ : ℝ) : Real.sin φ * Real.sin φ = (1 - (exp (2 * I * φ)).re) / 2 := by
  have : (2 * I * (φ : ℂ)) = ((2 * φ : ℝ) : ℂ) * I := by push_cast; ring
  rw [this, exp_ofReal_mul_I_re, Real.cos_two_mul, Real.cos_sq']
  ring

theorem sin_two_of_exp (φ : ℝ) : Real.sin (2 * φ) = (exp (2 * I * φ)).im := by
  have : (2 * I * (φ : ℂ)) = ((2 * φ : ℝ) : ℂ) * I := by push_cast; ring
  rw [this, exp_ofReal_mul_I_im]

theorem sin_sq_continuous {φ : ℝ → ℝ} (h : ContinuousAt (fun E => exp (2 * I * φ E)) E₀) :
    ContinuousAt (fun E => Real.sin (φ E) * Real.sin (φ E)) E₀ := by
  simp only [sin_sq_of_exp]
  exact (continuousAt_const.sub (continuous_re.continuousAt.comp h)).div_const 2

theorem sin_two_continuous {φ : ℝ → ℝ} (h : ContinuousAt (fun E => exp (2 * I * φ E)) E₀) :
    ContinuousAt (fun E => Real.sin (2 * φ E)) E₀ := by
  simp only [sin_two_of_exp]
  exact continuous_im.continuousAt.comp h

/-! ## Systems of any type of spin group -/

/-- What is added to a map: the reported reactions and their cross sections. -/
structure Added (m m' : LegacyMap) (reported : LegacyID → Bool) (f : LegacyID → ℝ) : Prop where
  isSome : ∀ id, (m' id).isSome = ((m id).isSome || reported id)
  value : ∀ id, (m' id).getD 0 = (m id).getD 0 + f id

theorem Added.trans {m m1 m' : LegacyMap} {b b' : LegacyID → Bool} {f f' : LegacyID → ℝ}
    (h : Added m m1 b f) (h' : Added m1 m' b' f') :
    Added m m' (fun id => b id || b' id) fun id => f id + f' id :=
  ⟨fun id => by rw [h'.isSome, h.isSome, Bool.or_assoc], fun id => by
    rw [h'.value, h.value, add_assoc]⟩

theorem Added.add (m : LegacyMap) (id : LegacyID) (v : ℝ) :
    Added m (m.add id v) (fun x => decide (x = id)) fun x => if x = id then v else 0 := by
  refine ⟨fun x => ?_, fun x => LegacyMap.add_getD m id x v⟩
  by_cases h : x = id
  · subst h
    simp [LegacyMap.add]
  · simp [LegacyMap.add, h]

theorem finite_or {b b' : LegacyID → Bool} (h : {id | b id = true}.Finite) (h' : {id | b' id = true}.Finite) :
    {id | (b id || b' id) = true}.Finite := by
  refine (h.union h').subset fun id hid => ?_
  simpa using hid

/-- A spin group that can be evaluated around an energy, with continuous cross sections. -/
structure ContinuousGroup {G : Type} (channel : G → Channel)
    (step : ℝ → G → LegacyMap → Outcome (LegacyMap × G)) (g : G) (E₀ : ℝ)
    (reported : LegacyID → Bool) (f : ℝ → LegacyID → ℝ) : Prop where
  continuous : ∀ id, ContinuousAt (fun E => f E id) E₀
  finite : {id | reported id = true}.Finite
  values : ∀ᶠ E in 𝓝 E₀, ∀ m, ∃ m' g', step E g m = .ok (m', g') ∧ channel g' = channel g ∧
    Added m m' reported (f E)

namespace LegacySystem

variable {G : Type} {channel : G → Channel} {step : ℝ → G → LegacyMap → Outcome (LegacyMap × G)}

theorem groups_continuous {gs : List G}
    (h : ∀ g ∈ gs, ∃ b f, ContinuousGroup channel step g E₀ b f) :
    ∃ (b : LegacyID → Bool) (f : ℝ → LegacyID → ℝ), (∀ id, ContinuousAt (fun E => f E id) E₀) ∧
      {id | b id = true}.Finite ∧
      ∀ᶠ E in 𝓝 E₀, ∀ m, ∃ m' gs', evaluateGroups (step E) gs m = .ok (m', gs') ∧
        gs'.map channel = gs.map channel ∧ Added m m' b (f E) := by
  induction gs with
  | nil =>
    refine ⟨fun _ => false, fun _ _ => 0, fun _ => continuousAt_const, by simp,
      Eventually.of_forall fun E m => ⟨m, [], rfl, rfl, ⟨fun id => by simp, fun id => by simp⟩⟩⟩
  | cons g gs ih =>
    obtain ⟨b, f, h1⟩ := h g List.mem_cons_self
    obtain ⟨b', f', h2, hfin, h3⟩ := ih fun g hg => h g (List.mem_cons_of_mem _ hg)
    refine ⟨fun id => b id || b' id, fun E id => f E id + f' E id,
      fun id => (h1.continuous id).add (h2 id), finite_or h1.finite hfin, ?_⟩
    filter_upwards [h1.values, h3] with E e1 e2 m
    obtain ⟨m1, g1, k1, k2, k3⟩ := e1 m
    obtain ⟨m2, gs2, k4, k5, k6⟩ := e2 m1
    exact ⟨m2, g1 :: gs2, evaluateGroups_cons_ok.mpr ⟨m1, g1, gs2, k1, k4, rfl⟩,
      by rw [List.map_cons, List.map_cons, k2, k5], k3.trans k6⟩

/-- The potential scattering as a function of the ratio. -/
theorem potential_continuous {lmax : ℕ} (hl : lmax ≤ 4) :
    ∃ v : ℝ → ℝ, Continuous v ∧ ∀ ratio, potential lib ratio lmax = .ok (v ratio) := by
  refine ⟨fun ρ => ∑ l ∈ Finset.range (lmax + 1), (2 * (l : ℝ) + 1)
    * Real.sin (ρ - atanQuotient (hsX l ρ) (hsY l ρ)) ^ 2, ?_, fun ρ => ?_⟩
  · refine continuous_finset_sum _ fun l hl' => ?_
    have hl4 : l ≤ 4 := by have := Finset.mem_range.mp hl'; omega
    refine continuous_const.mul ?_
    have e : (fun ρ : ℝ => Real.sin (ρ - atanQuotient (hsX l ρ) (hsY l ρ)) ^ 2)
        = fun ρ => (1 - (exp (2 * I * ((ρ - atanQuotient (hsX l ρ) (hsY l ρ) : ℝ) : ℂ))).re) / 2 := by
      funext ρ
      rw [pow_two, sin_sq_of_exp]
    rw [e]
    exact (continuous_const.sub (continuous_re.comp (hsPhase_continuous hl4))).div_const 2
  · obtain ⟨v, hv⟩ := potential_exists (lib := lib) (ratio := ρ) hl
    obtain ⟨φ, h1, h2⟩ := potential_ok hv
    rw [hv, h2]
    congr 1
    refine Finset.sum_congr rfl fun l hl' => ?_
    have hl4 : l ≤ lmax := by have := Finset.mem_range.mp hl'; omega
    have := (h1 l hl4).symm.trans (calculatePhaseShift_eq lib (hl4.trans hl) ρ 0)
    rw [Except.ok.inj this]

/-- Systems whose groups are continuous. -/
theorem system_continuous {s s' : LegacySystem G} (hl : s.lmax ≤ 4)
    (h : ∀ g ∈ s.groups, ∃ b f, ContinuousGroup channel step g E₀ b f)
    (hr : ∀ g ∈ s.groups, Spec.ContinuousRadius (channel g).radii.phaseShift E₀)
    {m₀ m : LegacyMap} (hm : s.evaluate K lib channel (step E₀) E₀ m₀ = .ok (m, s')) :
    ∃ (b : LegacyID → Bool) (f : ℝ → LegacyID → ℝ), (∀ id, ContinuousAt (fun E => f E id) E₀) ∧
      {id | b id = true}.Finite ∧
      ∀ᶠ E in 𝓝 E₀, ∀ m, ∃ m' s', s.evaluate K lib channel (step E) E m = .ok (m', s') ∧
        Added m m' b (f E) := by
  obtain ⟨b, f, h1, hfin, h2⟩ := groups_continuous h
  obtain ⟨m1, first, rest, radius, v, e1, -, e2, e3, -, -⟩ := evaluate_ok hm
  obtain ⟨m1', gs', k1, k2, -⟩ := h2.self_of_nhds m₀
  rw [e1] at k1
  cases k1
  cases hg : s.groups with
  | nil => rw [hg] at k2; cases k2
  | cons g gs =>
    rw [hg, List.map_cons, List.map_cons] at k2
    have hch : channel first = channel g := (List.cons.inj k2).1
    obtain ⟨a, ha, hav⟩ := hr g (by rw [hg]; exact List.mem_cons_self)
    obtain ⟨v, hv, hpot⟩ := potential_continuous (lib := lib) hl
    have hk := (waveNumber_continuous K (channel g)).continuousAt (x := E₀)
    rw [hch] at e3
    refine ⟨fun id => b id || decide (id = legacyID (channel g) .elastic), fun E id => f E id + if id = legacyID (channel g) .elastic then
      4 * Real.pi / ((channel g).waveNumber K E * (channel g).waveNumber K E)
        * v ((channel g).waveNumber K E * a E) else 0, fun id => (h1 id).add ?_,
      finite_or hfin (by simp), ?_⟩
    rotate_left
    · filter_upwards [h2, hav, hk.eventually_ne e3] with E c1 c2 c3 m
      obtain ⟨m1, gs1, d1, d2, d3⟩ := c1 m
      cases gs1 with
      | nil => rw [hg] at d2; cases d2
      | cons g1 gs1 =>
        rw [hg, List.map_cons, List.map_cons] at d2
        have hch' : channel g1 = channel g := (List.cons.inj d2).1
        refine ⟨_, _, evaluate_of (m := m) d1 (by rw [hch']; exact c2) (by rw [hch']; exact c3) (hpot _), ?_⟩
        rw [hch']
        exact d3.trans (Added.add _ _ _)
    · split
      · refine ContinuousAt.mul (continuousAt_const.div (hk.mul hk) (mul_ne_zero e3 e3)) ?_
        exact hv.continuousAt.comp (f := fun E => (channel g).waveNumber K E * a E) (hk.mul ha)
      · exact continuousAt_const

/-- Such systems have cross sections around the energy that are close to those at the energy. -/
theorem system_close {s s' : LegacySystem G} (hl : s.lmax ≤ 4)
    (h : ∀ g ∈ s.groups, ∃ b f, ContinuousGroup channel step g E₀ b f)
    (hr : ∀ g ∈ s.groups, Spec.ContinuousRadius (channel g).radii.phaseShift E₀)
    {m : LegacyMap} (hm : s.evaluate K lib channel (step E₀) E₀ (fun _ => none) = .ok (m, s'))
    {ε : ℝ} (hε : 0 < ε) :
    ∃ δ > 0, ∀ E, |E - E₀| < δ → ∃ m' s', s.evaluate K lib channel (step E) E (fun _ => none) = .ok (m', s') ∧
      ∀ id, Spec.Close ε (m' id) (m id) := by
  obtain ⟨b, f, h1, h2, h3⟩ := system_continuous hl h hr hm
  have hf : ∀ᶠ E in 𝓝 E₀, ∀ id ∈ {id | b id = true}, |f E id - f E₀ id| < ε :=
    (eventually_all_finite h2).mpr fun id _ => by
      have := Metric.continuousAt_iff'.mp (h1 id) ε hε
      filter_upwards [this] with E hE
      rwa [Real.dist_eq] at hE
  obtain ⟨m₀, s₀, k1, k2⟩ := h3.self_of_nhds fun _ => none
  rw [hm] at k1
  cases k1
  obtain ⟨δ, hδ, hall⟩ := Metric.eventually_nhds_iff.mp (h3.and hf)
  refine ⟨δ, hδ, fun E hE => ?_⟩
  obtain ⟨e1, e2⟩ := hall (by rw [Real.dist_eq]; exact hE)
  obtain ⟨m', s', e3, e4⟩ := e1 fun _ => none
  refine ⟨m', s', e3, fun id => ?_⟩
  have i1 := k2.isSome id
  have i2 := e4.isSome id
  have v1 := k2.value id
  have v2 := e4.value id
  simp only [Option.isSome_none, Bool.false_or] at i1 i2
  simp only [Option.getD_none, zero_add] at v1 v2
  cases hb : b id with
  | false =>
    rw [hb] at i1 i2
    rw [Option.isSome_eq_false_iff, Option.isNone_iff_eq_none] at i1 i2
    rw [i1, i2]
    trivial
  | true =>
    rw [hb] at i1 i2
    obtain ⟨x, hx⟩ := Option.isSome_iff_exists.mp i1
    obtain ⟨y, hy⟩ := Option.isSome_iff_exists.mp i2
    rw [hx] at v1
    rw [hy] at v2
    rw [hx, hy]
    simp only [Option.getD_some] at v1 v2
    show |y - x| < ε
    rw [v1, v2]
    exact e2 id hb

end LegacySystem

/-! ## Breit-Wigner groups -/

namespace BreitWigner

theorem slbwMap_added (g : SpinGroup) (E : ℝ) (c : Data ℝ) (m : LegacyMap) :
    Added m (slbwMap K g E c m) (fun id => decide (id = legacyID g.channel .elastic)
        || decide (id = legacyID g.channel .capture)
        || (decide (c.fission ≠ 0) && decide (id = legacyID g.channel .fission)))
      fun id => (if id = legacyID g.channel .elastic then factor K g E * c.elastic else 0)
        + (if id = legacyID g.channel .capture then factor K g E * c.capture else 0)
        + if id = legacyID g.channel .fission then factor K g E * c.fission else 0 := by
  unfold slbwMap
  have h1 := (Added.add m (legacyID g.channel .elastic) (factor K g E * c.elastic)).trans
    (Added.add _ (legacyID g.channel .capture) (factor K g E * c.capture))
  dsimp only
  split
  · rename_i hc
    refine ⟨fun id => ?_, (h1.trans (Added.add _ (legacyID g.channel .fission) _)).value⟩
    rw [(h1.trans (Added.add _ (legacyID g.channel .fission) _)).isSome]
    simp [hc]
  · rename_i hc
    rw [not_not] at hc
    refine ⟨fun id => ?_, fun id => ?_⟩
    · rw [h1.isSome]
      simp [hc]
    · rw [h1.value, hc]
      simp

/-- A resonance with widths that are not negative. -/
def Resonance.Nonneg (r : Resonance) : Prop := 0 ≤ r.elasticToPenetrability ∧ 0 ≤ r.fission

theorem group_continuous {formalism : Formalism} {g g' : SpinGroup} {m₀ m : LegacyMap}
    (ht : g.channel.type = .neutron)
    (h1 : Spec.ContinuousRadius g.channel.radii.penetrability E₀)
    (h2 : Spec.ContinuousRadius g.channel.radii.shiftFactor E₀)
    (h3 : Spec.ContinuousRadius g.channel.radii.phaseShift E₀)
    (hpos : ∃ a, 0 < a ∧ g.channel.radii.penetrability E₀ = .ok a)
    (h4 : g.qx ≠ 0 → Spec.ContinuousRadius g.channel.radii.penetrability (E₀ - g.qx))
    (hw : ∀ r ∈ g.resonances, r.Nonneg)
    (h : evaluate K lib E₀ formalism g m₀ = .ok (m, g')) :
    ∃ b f, ContinuousGroup SpinGroup.channel (fun E => evaluate K lib E formalism) g E₀ b f := by
  obtain ⟨p₀, q₀, s₀, φ₀, hV, -, -⟩ := evaluate_values h
  have hl : g.channel.numbers.l ≤ 4 := by
    by_contra hl
    have := hV.penetrability
    obtain ⟨a, -, ha⟩ := hpos
    have heta : g.channel.eta K E₀ = .ok 0 := if_neg (by rw [ht]; decide)
    simp only [Channel.penetrability, heta, ha, ht] at this
    have hn : calculatePenetrability lib .neutron g.channel.numbers.l (g.channel.waveNumber K E₀ * a) 0
        = .error .throws := by
      unfold calculatePenetrability
      match hm : g.channel.numbers.l, hl with
      | 0, h | 1, h | 2, h | 3, h | 4, h => omega
      | _ + 5, _ => rfl
    change calculatePenetrability lib .neutron g.channel.numbers.l (g.channel.waveNumber K E₀ * a) 0
      = .ok p₀ at this
    rw [hn] at this
    cases this
  obtain ⟨a, ha, hav⟩ := h1
  obtain ⟨b, hb, hbv⟩ := h2
  obtain ⟨d, hd, hdv⟩ := h3
  have heta : ∀ E, g.channel.eta K E = .ok 0 := fun E => if_neg (by rw [ht]; decide)
  have hk := (waveNumber_continuous K g.channel).continuousAt (x := E₀)
  set l := g.channel.numbers.l with hldef
  set k := g.channel.waveNumber K with hkdef
  set P : ℝ → ℝ := fun E => hsP l (k E * a E) with hP
  set S : ℝ → ℝ := fun E => hsS l (k E * b E) with hS
  set Φ : ℝ → ℝ := fun E => k E * d E - atanQuotient (hsX l (k E * d E)) (hsY l (k E * d E)) with hΦ
  have cP : ContinuousAt P E₀ := (hsP_continuous hl).continuousAt.comp (f := fun E => k E * a E) (hk.mul ha)
  have cS : ContinuousAt S E₀ := (hsS_continuous hl).continuousAt.comp (f := fun E => k E * b E) (hk.mul hb)
  have cΦ : ContinuousAt (fun E => exp (2 * I * Φ E)) E₀ :=
    (hsPhase_continuous hl).continuousAt.comp (f := fun E => k E * d E) (hk.mul hd)
  have vP : ∀ {E x}, g.channel.radii.penetrability E = .ok x →
      g.channel.penetrability K lib E = .ok (hsP l (k E * x)) := by
    intro E x h1
    simp only [Channel.penetrability, heta, h1, ht]
    exact calculatePenetrability_eq lib hl _ 0
  have vS : ∀ {E x}, g.channel.radii.shiftFactor E = .ok x →
      g.channel.shiftFactor K lib E = .ok (hsS l (k E * x)) := by
    intro E x h1
    simp only [Channel.shiftFactor, heta, h1, ht]
    exact calculateShiftFactor_eq lib hl _ 0
  have vΦ : ∀ {E x}, g.channel.radii.phaseShift E = .ok x →
      g.channel.phaseShift K lib E
        = .ok (k E * x - atanQuotient (hsX l (k E * x)) (hsY l (k E * x))) := by
    intro E x h1
    simp only [Channel.phaseShift, heta, h1, ht]
    exact calculatePhaseShift_eq lib hl _ 0
  obtain ⟨Q, cQ, vQ⟩ : ∃ Q : ℝ → ℝ, ContinuousAt Q E₀ ∧ ∀ᶠ E in 𝓝 E₀,
      g.competitionPenetrability K lib E (P E) = .ok (Q E) := by
    by_cases hq : g.qx = 0
    · exact ⟨P, cP, Eventually.of_forall fun E => if_neg (not_not.mpr hq)⟩
    · obtain ⟨e, he, hev⟩ := h4 hq
      have hsub : ContinuousAt (fun E => E - g.qx) E₀ := by fun_prop
      refine ⟨fun E => hsP l (k (E - g.qx) * e (E - g.qx)), ?_, ?_⟩
      · refine (hsP_continuous hl).continuousAt.comp (f := fun E => k (E - g.qx) * e (E - g.qx)) ?_
        exact ((waveNumber_continuous K g.channel).continuousAt.comp (f := fun E => E - g.qx) hsub).mul
          (ContinuousAt.comp (f := fun E => E - g.qx) he hsub)
      · filter_upwards [hsub.eventually hev] with E hE
        unfold SpinGroup.competitionPenetrability
        rw [if_pos hq]
        exact vP hE
  have cT : ∀ r : Resonance, ContinuousAt (fun E => r.totalAt (P E) (Q E)) E₀ := by
    intro r
    unfold Resonance.totalAt Resonance.elasticAt Resonance.competitionAt
    fun_prop
  have cE : ∀ r : Resonance, ContinuousAt (fun E => r.elasticAt (P E)) E₀ := by
    intro r
    unfold Resonance.elasticAt
    fun_prop
  have cD : ∀ r : Resonance, ContinuousAt (fun E => E - r.energyPrime (S E)) E₀ := by
    intro r
    unfold Resonance.energyPrime
    fun_prop
  have cN : ∀ r : Resonance, ContinuousAt (fun E => (E - r.energyPrime (S E)) * (E - r.energyPrime (S E))
      + 0.25 * r.totalAt (P E) (Q E) * r.totalAt (P E) (Q E)) E₀ := fun r =>
    ((cD r).mul (cD r)).add ((continuousAt_const.mul (cT r)).mul (cT r))
  have e1 : P E₀ = p₀ := Except.ok.inj ((vP hav.self_of_nhds).symm.trans hV.penetrability)
  have e2 : S E₀ = s₀ := Except.ok.inj ((vS hbv.self_of_nhds).symm.trans hV.shiftFactor)
  have e3 : Q E₀ = q₀ := by
    have := vQ.self_of_nhds
    rw [e1] at this
    exact Except.ok.inj (this.symm.trans hV.competition)
  have hN : ∀ r ∈ g.resonances, (E₀ - r.energyPrime (S E₀)) * (E₀ - r.energyPrime (S E₀))
      + 0.25 * r.totalAt (P E₀) (Q E₀) * r.totalAt (P E₀) (Q E₀) ≠ 0 := by
    rw [e1, e2, e3]
    exact hV.denominator
  have hVal : ∀ᶠ E in 𝓝 E₀, Values K lib g E (P E) (Q E) (S E) (Φ E) := by
    have hden : ∀ᶠ E in 𝓝 E₀, ∀ r ∈ {r | r ∈ g.resonances}, (E - r.energyPrime (S E)) * (E - r.energyPrime (S E))
        + 0.25 * r.totalAt (P E) (Q E) * r.totalAt (P E) (Q E) ≠ 0 :=
      (eventually_all_finite (List.finite_toSet _)).mpr fun r hr => (cN r).eventually_ne (hN r hr)
    filter_upwards [hav, hbv, hdv, vQ, hk.eventually_ne hV.waveNumber, hden] with E c1 c2 c3 c4 c5 c6
    exact ⟨vP c1, c4, vS c2, vΦ c3, c5, c6⟩
  have cF : ContinuousAt (fun E => factor K g E) E₀ := by
    unfold factor
    exact (continuousAt_const.div (hk.mul hk) (mul_ne_zero hV.waveNumber hV.waveNumber)).mul continuousAt_const
  have c1 : ContinuousAt (fun E => (components g E (P E) (Q E) (S E) (Φ E)).elastic) E₀ := by
    simp only [components_eq]
    refine sum_map_continuous _ fun r hr => ((cE r).mul (((cE r).sub ((continuousAt_const.mul (cT r)).mul
      (sin_sq_continuous cΦ))).add ((continuousAt_const.mul (cD r)).mul (sin_two_continuous cΦ)))).div (cN r)
        (hN r hr)
  have c2 : ContinuousAt (fun E => (components g E (P E) (Q E) (S E) (Φ E)).capture) E₀ := by
    simp only [components_eq]
    exact sum_map_continuous _ fun r hr => (continuousAt_const.mul (cE r)).div (cN r) (hN r hr)
  have c3 : ContinuousAt (fun E => (components g E (P E) (Q E) (S E) (Φ E)).fission) E₀ := by
    simp only [components_eq]
    exact sum_map_continuous _ fun r hr => (continuousAt_const.mul (cE r)).div (cN r) (hN r hr)
  have c4 : ContinuousAt (fun E => SpinGroup.crossTerm (stored g E (P E) (Q E) (S E)) g.resonances.length)
      E₀ := by
    simp only [crossTerm_eq]
    refine tendsto_finsetSum _ fun i hi => tendsto_finsetSum _ fun j hj => ?_
    have hi' := Finset.mem_range.mp hi
    have hj' := (Finset.mem_range.mp hj).trans hi'
    have get : ∀ {i : ℕ} (h : i < g.resonances.length) (f : Resonance → ℝ),
        (g.resonances.map f).getD i 0 = f (g.resonances[i]) := by
      intro i h f
      simp [List.getD, h]
    simp only [stored, get hi', get hj']
    exact ((((continuousAt_const.mul (cE _)).mul (cE _)).mul (((cD _).mul (cD _)).add
      ((continuousAt_const.mul (cT _)).mul (cT _)))).div (cN _) (hN _ (List.getElem_mem hi'))).div (cN _)
        (hN _ (List.getElem_mem hj'))
  have hfis : ∀ᶠ E in 𝓝 E₀, ((components g E (P E) (Q E) (S E) (Φ E)).fission ≠ 0 ↔
      (components g E₀ (P E₀) (Q E₀) (S E₀) (Φ E₀)).fission ≠ 0) := by
    by_cases hz : (components g E₀ (P E₀) (Q E₀) (S E₀) (Φ E₀)).fission = 0
    · refine Eventually.of_forall fun E => ?_
      have hall : ∀ r ∈ g.resonances, r.fission * r.elasticToPenetrability = 0 := by
        have hp : 0 < P E₀ := by
          obtain ⟨x, hx, hxv⟩ := hpos
          have : a E₀ = x := Except.ok.inj (hav.self_of_nhds.symm.trans hxv)
          simp only [hP, this]
          exact hsP_pos hl (mul_pos (lt_of_le_of_ne (waveNumber_nonneg K _ _) hV.waveNumber.symm) hx)
        have hden : ∀ r ∈ g.resonances, 0 < (E₀ - r.energyPrime (S E₀)) * (E₀ - r.energyPrime (S E₀))
            + 0.25 * r.totalAt (P E₀) (Q E₀) * r.totalAt (P E₀) (Q E₀) := fun r hr =>
          lt_of_le_of_ne (add_nonneg (mul_self_nonneg _) (by
            rw [mul_assoc]
            exact mul_nonneg (by norm_num) (mul_self_nonneg _))) (hN r hr).symm
        rw [components_eq] at hz
        have hz := fun x => List.all_zero_of_le_zero_le_of_sum_eq_zero (x := x) ?_ hz
        · intro r hr
          have := hz _ (List.mem_map_of_mem hr)
          rw [div_eq_zero_iff, or_iff_left (hden r hr).ne'] at this
          unfold Resonance.elasticAt at this
          have h0 : P E₀ * (r.fission * r.elasticToPenetrability) = 0 := by linarith
          exact (mul_eq_zero.mp h0).resolve_left hp.ne'
        · intro x hx
          obtain ⟨r, hr, rfl⟩ := List.mem_map.mp hx
          have := hw r hr
          exact div_nonneg (mul_nonneg this.2 (mul_nonneg hp.le this.1)) (hden r hr).le
      have hzero : (components g E (P E) (Q E) (S E) (Φ E)).fission = 0 := by
        rw [components_eq]
        refine List.sum_eq_zero fun x hx => ?_
        obtain ⟨r, hr, rfl⟩ := List.mem_map.mp hx
        have : r.fission * r.elasticAt (P E) = P E * (r.fission * r.elasticToPenetrability) := by
          unfold Resonance.elasticAt; ring
        rw [this, hall r hr, mul_zero, zero_div]
      rw [hzero, hz]
    · filter_upwards [c3.eventually_ne hz] with E hE
      exact iff_of_true hE hz
  set rep : LegacyID → Bool := fun id => decide (id = legacyID g.channel .elastic)
        || decide (id = legacyID g.channel .capture)
        || (decide ((components g E₀ (P E₀) (Q E₀) (S E₀) (Φ E₀)).fission ≠ 0)
          && decide (id = legacyID g.channel .fission)) with hrep
  have hfin : {id | rep id = true}.Finite := by
    refine finite_or (finite_or (by simp) (by simp)) ?_
    refine Set.Finite.subset (Set.finite_singleton (legacyID g.channel .fission)) fun id hid => ?_
    simp only [Set.mem_ofPred_eq, Bool.and_eq_true, decide_eq_true_eq] at hid
    exact hid.2
  set f : ℝ → LegacyID → ℝ := fun E id => (if id = legacyID g.channel .elastic then
          factor K g E * (components g E (P E) (Q E) (S E) (Φ E)).elastic else 0)
        + (if id = legacyID g.channel .capture then
          factor K g E * (components g E (P E) (Q E) (S E) (Φ E)).capture else 0)
        + if id = legacyID g.channel .fission then
          factor K g E * (components g E (P E) (Q E) (S E) (Φ E)).fission else 0 with hf
  have cf : ∀ id, ContinuousAt (fun E => f E id) E₀ := by
    intro id
    refine ((?_ : ContinuousAt _ _).add ?_).add ?_ <;> split <;>
      first | exact continuousAt_const | exact cF.mul ‹_›
  have hadd : ∀ᶠ E in 𝓝 E₀, ∀ m, Added m (slbwMap K g E (components g E (P E) (Q E) (S E) (Φ E)) m) rep
      (f E) := by
    filter_upwards [hfis] with E hE m
    have := slbwMap_added (K := K) g E (components g E (P E) (Q E) (S E) (Φ E)) m
    simp only [hE] at this
    exact this
  cases formalism with
  | singleLevel =>
    refine ⟨rep, f, cf, hfin, ?_⟩
    filter_upwards [hVal, hadd] with E k1 k2 m
    exact ⟨_, _, evaluateSLBW_of k1 m, rfl, k2 m⟩
  | multiLevel =>
    refine ⟨fun id => rep id || decide (id = legacyID g.channel .elastic), fun E id => f E id
      + if id = legacyID g.channel .elastic then factor K g E
        * SpinGroup.crossTerm (stored g E (P E) (Q E) (S E)) g.resonances.length else 0,
      fun id => (cf id).add ?_, finite_or hfin (by simp), ?_⟩
    · split
      · exact cF.mul c4
      · exact continuousAt_const
    · filter_upwards [hVal, hadd] with E k1 k2 m
      exact ⟨_, _, evaluateMLBW_of k1 m, rfl, (k2 m).trans (Added.add _ _ _)⟩

end BreitWigner

end Verif
