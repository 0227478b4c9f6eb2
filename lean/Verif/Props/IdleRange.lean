import Verif.Props.Order
import Verif.Props.PotentialScattering

/-!
# C77 for Breit-Wigner ranges: resonances without neutron width may be left out
-/

namespace Verif.Endf

open Spec Complex

/-- The second l value has all resonances of the first, in any order, but for some without neutron width. It
keeps one if there are any. -/
structure WithoutIdle (lv lv' : BreitWignerLValue) : Prop where
  l : lv.l = lv'.l
  awri : lv.awri = lv'.awri
  qx : lv.qx = lv'.qx
  lrx : lv.lrx = lv'.lrx
  resonances : ∃ idle, lv.resonances.Perm (lv'.resonances ++ idle) ∧ ∀ r ∈ idle, r.neutronWidth = 0
  some : lv.resonances ≠ [] → lv'.resonances ≠ []

/-- A Breit-Wigner evaluation and the same one without resonances that have no neutron width. -/
structure LeavesOutIdle (p p' : BreitWigner) : Prop where
  spin : p.spin = p'.spin
  ap : p.ap = p'.ap
  lValues : List.Forall₂ WithoutIdle p.lValues p'.lValues

variable {K : Constants} {lib : CoulombLibrary} {tables : InterpolationLibrary}
  {initialBreitWigner : Channel → Verif.BreitWigner.Cache} {neutronMass elementaryCharge A E : ℝ}
  {incident target : Str} {reactions : ReactionLibrary}
  {initial : (g : SpinGroup) → MatrixCache g.channels.length} {range : Range} {naps : ℤ}
  {R R' R₁ R₁' : Reconstructor} {nro : Option (ℝ → Outcome ℝ)} {multi : Bool}

theorem WithoutIdle.empty {lv lv' : BreitWignerLValue} (h : WithoutIdle lv lv') :
    lv.resonances = [] ↔ lv'.resonances = [] := by
  constructor
  · intro e
    obtain ⟨idle, hp, -⟩ := h.resonances
    rw [e] at hp
    exact (List.append_eq_nil_iff.mp hp.symm.eq_nil).1
  · intro e
    by_contra hne
    exact h.some hne e

/-- Resonances without neutron width contribute nothing to the formulas. -/
theorem idle_wave {I : ℚ} {w : Wave} {bs zs : List Assigned} (h : ∀ a ∈ zs, a.parameters.elastic = 0) :
    captureSum I E w (bs ++ zs) = captureSum I E w bs ∧ fissionSum I E w (bs ++ zs) = fissionSum I E w bs ∧
      resonantElastic multi I E w (bs ++ zs) = resonantElastic multi I E w bs := by
  have hw : ∀ a ∈ zs, a.parameters.neutronWidth w.p = 0 := by
    intro a ha
    simp [Parameters.neutronWidth, h a ha]
  obtain ⟨z1, z2, z3⟩ := wave_potential (multi := false) (spin := I) (E := E) (w := w) h
  refine ⟨?_, ?_, ?_⟩
  · unfold captureSum at z2 ⊢
    rw [List.map_append, List.sum_append, z2, add_zero]
  · unfold fissionSum at z3 ⊢
    rw [List.map_append, List.sum_append, z3, add_zero]
  cases multi with
  | false =>
    unfold resonantElastic at z1 ⊢
    rw [if_neg Bool.false_ne_true] at z1 ⊢
    unfold singleElastic at z1 ⊢
    rw [List.map_append, List.sum_append, if_neg Bool.false_ne_true]
    linarith
  | true =>
    have excess : ∀ rs : List Assigned, resonantElastic true I E w rs
        = ∑ J ∈ (rs.map Assigned.J).toFinset, (neutronFactor I J : ℝ) * (Complex.normSq (1 - levelCollision w.φ E
          ((rs.filter fun r => r.J = J).map fun r => r.level w)) - 4 * Real.sin w.φ ^ 2) := by
      intro rs
      unfold resonantElastic
      rw [if_pos rfl]
      unfold multiElastic
      simp only [mul_sub, Finset.sum_sub_distrib, ← Finset.sum_mul]
      ring
    have idle : ∀ J, levelSum E ((zs.filter fun r => r.J = J).map fun r => r.level w) = 0 := by
      intro J
      unfold levelSum
      apply List.sum_eq_zero
      intro x hx
      obtain ⟨v, hv, rfl⟩ := List.mem_map.mp hx
      obtain ⟨a, ha, rfl⟩ := List.mem_map.mp hv
      simp [Assigned.level, hw a (List.mem_filter.mp ha).1]
    have hU : ∀ J, levelCollision w.φ E (((bs ++ zs).filter fun r => r.J = J).map fun r => r.level w)
        = levelCollision w.φ E ((bs.filter fun r => r.J = J).map fun r => r.level w) := by
      intro J
      unfold levelCollision
      have : levelSum E (((bs ++ zs).filter fun r => r.J = J).map fun r => r.level w)
          = levelSum E ((bs.filter fun r => r.J = J).map fun r => r.level w) := by
        have e := idle J
        unfold levelSum at e ⊢
        rw [List.filter_append, List.map_append, List.map_append, List.sum_append, e, add_zero]
      rw [this]
    rw [excess, excess]
    simp only [hU]
    symm
    refine Finset.sum_subset ?_ ?_
    · intro J hJ
      rw [List.mem_toFinset] at hJ ⊢
      rw [List.map_append]
      exact List.mem_append_left _ hJ
    · intro J _ hJ
      rw [List.mem_toFinset] at hJ
      have hnil : (bs.filter fun r => r.J = J) = [] := by
        rw [List.filter_eq_nil_iff]
        intro a ha hJ'
        exact hJ (List.mem_map.mpr ⟨a, ha, of_decide_eq_true hJ'⟩)
      rw [hnil]
      have : levelCollision w.φ E (([] : List Assigned).map fun r => r.level w) = exp (-(2 * Complex.I * w.φ)) := by
        simp [levelCollision, levelSum]
      rw [this, normSq_one_sub_exp, sub_self, mul_zero]

theorem partialWave_idle {k : ℝ → ℝ} {channel scattering : ℝ → Outcome ℝ} {lv lv' : BreitWignerLValue}
    {w : Wave} {as : List Assigned} (hs : WithoutIdle lv lv')
    (h : IsPartialWave k channel scattering E lv w as) :
    ∃ bs zs, IsPartialWave k channel scattering E lv' w bs ∧ as.Perm (bs ++ zs) ∧
      ∀ a ∈ zs, a.parameters.elastic = 0 := by
  obtain ⟨s1, s2, s3, s4, ⟨idle, s5, s6⟩, -⟩ := hs
  obtain ⟨cs, h1, h2, -⟩ := perm_along s5 h.resonances
  obtain ⟨bs, zs, b1, b2, rfl⟩ : ∃ bs zs, List.Forall₂ (IsResonance k channel lv) lv'.resonances bs ∧
      List.Forall₂ (IsResonance k channel lv) idle zs ∧ cs = bs ++ zs := by
    have e := h1.length_eq
    rw [List.length_append] at e
    refine ⟨cs.take lv'.resonances.length, cs.drop lv'.resonances.length, ?_, ?_,
      (List.take_append_drop _ _).symm⟩
    · simpa using List.forall₂_take lv'.resonances.length h1
    · simpa using List.forall₂_drop lv'.resonances.length h1
  refine ⟨bs, zs, ?_, h2, fun a ha => ?_⟩
  · refine ⟨by rw [← s1]; exact h.l, by rw [← s1]; exact h.own, by rw [← s1]; exact h.phase,
      by rw [← s1, ← s3]; exact h.competitive, ?_⟩
    refine b1.imp fun r a hr => ?_
    refine ⟨hr.J, hr.energy, hr.elastic, hr.capture, hr.fission, by rw [← s4]; exact hr.competition,
      by rw [← s1]; exact hr.own, by rw [← s1, ← s3, ← s4]; exact hr.competitive,
      by rw [← s4]; exact hr.finite⟩
  · obtain ⟨r, hr, hra⟩ := forall₂_mem_right b2 ha
    rw [hra.elastic, s6 r hr]

/-- The formula for a range holds without the resonances that have no neutron width. -/
theorem isBreitWigner_idle {p p' : BreitWigner} {ws : List (Wave × List Assigned)} {m : LegacyID → Option ℝ}
    (hs : LeavesOutIdle p p') (h : IsBreitWigner K neutronMass E incident target nro naps multi p ws m) :
    ∃ ws', IsBreitWigner K neutronMass E incident target nro naps multi p' ws' m := by
  obtain ⟨s1, s2, s3⟩ := hs
  obtain ⟨ws', v1, v2⟩ := relate_along (P' := fun (lv : BreitWignerLValue) (w : Wave × List Assigned) =>
      if lv.resonances = [] then w.2 = [] else lv.l ≤ 4 ∧
      ∃ channel scattering, IsRadii p.ap nro naps (lv.awri * neutronMass) channel scattering ∧
      IsPartialWave (neutronWaveNumber (waveConstant K.hbar neutronMass) lv.awri) channel scattering E
        lv w.1 w.2) (V := fun w w' => w.1 = w'.1 ∧ ∃ zs, w.2.Perm (w'.2 ++ zs) ∧
          ∀ a ∈ zs, a.parameters.elastic = 0) s3 h.waves (by
    rintro x z ⟨w, as⟩ hxz hw
    dsimp only at hw ⊢
    by_cases he : x.resonances = []
    · rw [if_pos he] at hw
      refine ⟨⟨w, []⟩, ?_, rfl, [], by rw [hw]; rfl, by simp⟩
      rw [if_pos (hxz.empty.mp he)]
    · rw [if_neg he] at hw
      obtain ⟨hl, channel, scattering, h1, h2⟩ := hw
      obtain ⟨bs, zs, k1, k2, k3⟩ := partialWave_idle hxz h2
      refine ⟨⟨w, bs⟩, ?_, rfl, zs, k2, k3⟩
      rw [if_neg fun hz => he (hxz.empty.mpr hz)]
      exact ⟨hxz.l ▸ hl, channel, scattering, hxz.awri ▸ h1, hxz.awri ▸ k1⟩)
  have sums : ∀ t : Wave × List Assigned → ℝ, (∀ w as bs, as.Perm bs → t (w, as) = t (w, bs)) →
      (∀ w bs zs, (∀ a ∈ zs, a.parameters.elastic = 0) → t (w, bs ++ zs) = t (w, bs)) →
      (List.zipWith (fun lv w => Real.pi
        / neutronWaveNumber (waveConstant K.hbar neutronMass) lv.awri E ^ 2 * t w) p.lValues ws).sum
      = (List.zipWith (fun lv w => Real.pi
        / neutronWaveNumber (waveConstant K.hbar neutronMass) lv.awri E ^ 2 * t w) p'.lValues ws').sum := by
    intro t ht ht'
    refine zipWith_sum_related s3 v2 ?_
    rintro x z ⟨w, as⟩ ⟨w', bs⟩ hxz ⟨e1, zs, e2, e3⟩
    dsimp only at e1 e2 e3
    subst e1
    rw [hxz.awri, ht _ _ _ e2, ht' _ _ _ e3]
  refine ⟨ws', ?_, ?_, ?_, ?_, h.other⟩
  · rw [← s2]
    exact v1
  · rw [h.capture, ← s1]
    exact congrArg _ (sums (fun w => captureSum p.spin E w.1 w.2) (fun _ _ _ h => captureSum_perm h)
      fun _ _ _ h => (idle_wave (multi := multi) h).1)
  · rw [h.fission, ← s1]
    exact sums (fun w => fissionSum p.spin E w.1 w.2) (fun _ _ _ h => fissionSum_perm h)
      fun _ _ _ h => (idle_wave (multi := multi) h).2.1
  · obtain ⟨before, lv, after, channel, scattering, radius, lmax, φ, a1, a2, a3, a4, a5, a6, a7, a8, a9,
      a10⟩ := h.elastic
    obtain ⟨before', lv', after', b1, b2, b3⟩ : ∃ before' lv' after', p'.lValues = before' ++ lv' :: after' ∧
        List.Forall₂ WithoutIdle before before' ∧ WithoutIdle lv lv' := by
      rw [a1] at s3
      clear * - s3
      generalize p'.lValues = ys at s3
      induction before generalizing ys with
      | nil =>
        cases s3 with
        | cons h1 h2 => exact ⟨[], _, _, rfl, .nil, h1⟩
      | cons b before ih =>
        cases s3 with
        | cons h1 h2 =>
          obtain ⟨bs, x, as, e, e1, e2⟩ := ih _ h2
          exact ⟨_ :: bs, x, as, by rw [e]; rfl, .cons h1 e1, e2⟩
    refine ⟨before', lv', after', channel, scattering, radius, lmax, φ, b1, ?_, b3.some a3, ?_, a5, ?_, ?_, ?_,
      ?_, ?_⟩
    · intro x hx
      obtain ⟨y, hy, hyx⟩ := forall₂_mem_right b2 hx
      exact hyx.empty.mp (a2 y hy)
    · rw [← b3.awri, ← s2]
      exact a4
    · intro x hx hne
      obtain ⟨y, hy, hyx⟩ := forall₂_mem_right s3 hx
      rw [← hyx.l]
      exact a6 y hy fun e => hne (hyx.empty.mp e)
    · obtain ⟨x, hx1, hx2, hx3⟩ := a7
      obtain ⟨y, hy, hxy⟩ := forall₂_mem_left s3 hx1
      exact ⟨y, hy, hxy.some hx2, hxy.l ▸ hx3⟩
    · rw [← b3.awri]
      exact a8
    · rw [← b3.awri]
      exact a9
    · rw [a10, ← b3.awri, ← s1]
      congr 2
      exact sums (fun w => resonantElastic multi p.spin E w.1 w.2) (fun _ _ _ h => resonantElastic_perm h)
        fun _ _ _ h => (idle_wave h).2.2

theorem physicalBreitWigner_idle {p p' : BreitWigner} (hs : LeavesOutIdle p p')
    (h : PhysicalBreitWigner neutronMass nro naps p) : PhysicalBreitWigner neutronMass nro naps p' := by
  obtain ⟨s1, s2, s3⟩ := hs
  have sub : ∀ {lv lv' : BreitWignerLValue}, WithoutIdle lv lv' → ∀ r ∈ lv'.resonances, r ∈ lv.resonances := by
    intro lv lv' hl r hr
    obtain ⟨idle, hp, -⟩ := hl.resonances
    exact hp.symm.subset (List.mem_append_left _ hr)
  have maps : ∀ {α : Type} (f : BreitWignerLValue → α), (∀ a b, WithoutIdle a b → f a = f b) →
      p.lValues.map f = p'.lValues.map f := by
    intro α f hf
    clear h
    generalize p.lValues = xs at s3
    generalize p'.lValues = ys at s3
    induction s3 with
    | nil => rfl
    | cons h1 _ ih => rw [List.map_cons, List.map_cons, ih, hf _ _ h1]
  refine ⟨h.mass, s1 ▸ h.spin, ?_, ?_, ?_, ?_, ?_, ?_, ?_, ?_⟩
  · obtain ⟨lv, hlv, hne⟩ := h.some
    obtain ⟨y, hy, hxy⟩ := forall₂_mem_left s3 hlv
    exact ⟨y, hy, hxy.some hne⟩
  · rw [← maps _ fun a b hab => hab.l]
    exact h.distinct
  all_goals
    intro y hy
    obtain ⟨x, hx, hxy⟩ := forall₂_mem_right s3 hy
  · rw [← hxy.awri]
    exact h.awri x hx
  · intro hne
    rw [← hxy.l, ← s3.length_eq]
    exact h.l x hx fun e => hne (hxy.empty.mp e)
  · intro r hr
    rw [← hxy.l, ← s1]
    exact h.spins x hx r (sub hxy r hr)
  · intro r hr r' hr'
    exact h.signs x hx r (sub hxy r hr) r' (sub hxy r' hr')
  · intro r hr
    exact h.widths x hx r (sub hxy r hr)
  · obtain ⟨c, s, h1, h2⟩ := h.radii x hx
    refine ⟨c, s, by rw [← hxy.awri, ← s2]; exact h1, fun r hr => ?_⟩
    rw [← hxy.lrx, ← hxy.qx]
    exact h2 r (sub hxy r hr)

/-- C77: resonances without neutron width may be left out of a Breit-Wigner range, as long as each l value keeps
one: the cross sections are the same. -/
theorem C77_breit_wigner {p p' : BreitWigner} {m m' : ReactionMap}
    (hR : fromENDF K lib tables reactions initialBreitWigner initial neutronMass elementaryCharge incident
      target range = .ok R)
    (hR' : fromENDF K lib tables reactions initialBreitWigner initial neutronMass elementaryCharge incident
      target { range with parameters := if multi then .multiLevel p' else .singleLevel p' } = .ok R')
    (hp : range.parameters = if multi then .multiLevel p else .singleLevel p) (hs : LeavesOutIdle p p')
    (hn : prescribedRadii range.scatteringRadius.isSome range.naps ≠ none)
    (hE : range.lower ≤ E ∧ E ≤ range.upper) (hm : R.call K lib E = .ok (m, R₁))
    (hm' : R'.call K lib E = .ok (m', R₁')) (id : ReactionID ⊕ LegacyID) :
    (m id).getD 0 = (m' id).getD 0 := by
  obtain ⟨n1, ws, t1, g1, o1⟩ := C65_cross_sections hR hp hn hE hm
  obtain ⟨n2, ws', t2, g2, o2⟩ := C65_cross_sections (multi := multi) hR' rfl hn hE hm'
  obtain rfl := rel_unique t1 t2
  obtain ⟨vs, g3⟩ := isBreitWigner_idle hs g1
  rcases id with id | id
  · rw [o1, o2]
  · exact isBreitWigner_unique g3 g2 id

/-- C77: if the evaluation makes sense physically, it is accepted with and without these resonances. -/
theorem C77_breit_wigner_accepted {p p' : BreitWigner}
    (ht : range.type = 1 ∧ range.representation = if multi then 2 else 1)
    (hp : range.parameters = if multi then .multiLevel p else .singleLevel p)
    (hr : Option.Rel (IsRadiusTable tables) range.scatteringRadius nro)
    (h : PhysicalBreitWigner neutronMass nro range.naps p) (hs : LeavesOutIdle p p') :
    ∃ R R', fromENDF K lib tables reactions initialBreitWigner initial neutronMass elementaryCharge incident
        target range = .ok R ∧
      fromENDF K lib tables reactions initialBreitWigner initial neutronMass elementaryCharge incident
        target { range with parameters := if multi then .multiLevel p' else .singleLevel p' } = .ok R' ∧
      ∀ E, E ≠ 0 → range.lower ≤ E ∧ E ≤ range.upper → HasRadii neutronMass nro range.naps p E →
        ∃ m m' R₁ R₁', R.call K lib E = .ok (m, R₁) ∧ R'.call K lib E = .ok (m', R₁') ∧
          ∀ id, (m id).getD 0 = (m' id).getD 0 := by
  obtain ⟨R, h1, h2⟩ := C65_accepted (K := K) (lib := lib) (reactions := reactions)
    (initialBreitWigner := initialBreitWigner) (initial := initial) (elementaryCharge := elementaryCharge)
    (incident := incident) (target := target) ht hp hr h
  obtain ⟨R', h3, h4⟩ := C65_accepted (K := K) (lib := lib) (reactions := reactions)
    (initialBreitWigner := initialBreitWigner) (initial := initial) (elementaryCharge := elementaryCharge)
    (incident := incident) (target := target) (p := p') (multi := multi)
    (range := { range with parameters := if multi then .multiLevel p' else .singleLevel p' }) ht rfl hr
    (physicalBreitWigner_idle hs h)
  refine ⟨R, R', h1, h3, fun E h0 hE hrad => ?_⟩
  obtain ⟨⟨m, R₁⟩, h5⟩ := h2 E h0 hrad
  obtain ⟨⟨m', R₁'⟩, h6⟩ := h4 E h0 (by
    intro y hy
    obtain ⟨x, hx, hxy⟩ := forall₂_mem_right hs.lValues hy
    rw [← hxy.awri, ← hxy.qx, ← hs.ap]
    exact hrad x hx)
  refine ⟨m, m', R₁, R₁', h5, h6, C77_breit_wigner h1 h3 hp hs ?_ hE h5 h6⟩
  obtain ⟨lv, hlv, -⟩ := h.some
  obtain ⟨channel, scattering, ⟨a, b, hab, -⟩, -⟩ := h.radii lv hlv
  rw [rel_isSome hr, hab]
  simp

namespace BreitWignerExample

/-- P-waves with a resonance at energy 7, and one at energy 9 that has another spin and no neutron width. -/
noncomputable def idle : BreitWigner := ⟨0, 1 / 2, [⟨0, 10, 0, 0, []⟩,
  ⟨1, 10, 0, 0, [⟨9, 1 / 2, 0, 1 / 5, 0, 0⟩, ⟨7, 3 / 2, 1 / 5, 1 / 10, 0, 0⟩]⟩]⟩

/-- The same without the resonance at energy 9. -/
noncomputable def busy : BreitWigner := ⟨0, 1 / 2, [⟨0, 10, 0, 0, []⟩,
  ⟨1, 10, 0, 0, [⟨7, 3 / 2, 1 / 5, 1 / 10, 0, 0⟩]⟩]⟩

theorem idle_physical : Spec.PhysicalBreitWigner 1 none 1 idle where
  mass := one_pos
  spin := ⟨0, by norm_num [idle]⟩
  some := ⟨_, List.mem_cons_of_mem _ List.mem_cons_self, by simp⟩
  distinct := by simp [idle]
  awri := by simp [idle]
  l := by simp [idle]
  spins := by
    intro lv hlv r hr
    simp only [idle, List.mem_cons, List.not_mem_nil, or_false] at hlv
    rcases hlv with rfl | rfl
    · cases hr
    · simp only [List.mem_cons, List.not_mem_nil, or_false] at hr
      rcases hr with rfl | rfl
      · dsimp only
        rw [abs_of_pos (by norm_num)]
        exact ⟨1 / 2, ⟨by norm_num [idle, abs_of_pos], by norm_num [idle],
          1, by norm_num [idle]⟩, by norm_num [abs_of_pos], by norm_num, 2, by norm_num⟩
      · dsimp only
        rw [abs_of_pos (by norm_num)]
        exact ⟨1 / 2, ⟨by norm_num [idle, abs_of_pos], by norm_num [idle],
          1, by norm_num [idle]⟩, by norm_num [abs_of_pos], by norm_num, 3, by norm_num⟩
  signs := by
    intro lv hlv r hr r' hr' h
    simp only [idle, List.mem_cons, List.not_mem_nil, or_false] at hlv
    rcases hlv with rfl | rfl <;> simp only [List.mem_cons, List.not_mem_nil, or_false] at hr hr'
    · rcases hr with rfl | rfl <;> rcases hr' with rfl | rfl <;> first | rfl | (norm_num at h)
  widths := by
    intro lv hlv r hr
    simp only [idle, List.mem_cons, List.not_mem_nil, or_false] at hlv
    rcases hlv with rfl | rfl <;> simp only [List.mem_cons, List.not_mem_nil, or_false] at hr
    · rcases hr with rfl | rfl <;> norm_num
  radii := by
    intro lv hlv
    refine ⟨fun _ => .ok (1 / 2), fun _ => .ok (1 / 2), radii _, fun r hr => ⟨?_, ⟨1 / 2, by norm_num, rfl⟩, fun hlrx => ?_⟩⟩
    · simp only [idle, List.mem_cons, List.not_mem_nil, or_false] at hlv
      rcases hlv with rfl | rfl <;> simp only [List.mem_cons, List.not_mem_nil, or_false] at hr
      · rcases hr with rfl | rfl <;> norm_num
    · exfalso
      simp only [idle, List.mem_cons, List.not_mem_nil, or_false] at hlv
      rcases hlv with rfl | rfl <;> exact hlrx rfl

theorem idle_leftOut : LeavesOutIdle idle busy :=
  ⟨rfl, rfl, .cons ⟨rfl, rfl, rfl, rfl, ⟨[], .refl _, by simp⟩, fun h => absurd rfl h⟩
    (.cons ⟨rfl, rfl, rfl, rfl, ⟨[⟨9, 1 / 2, 0, 1 / 5, 0, 0⟩], List.Perm.swap _ _ _, by simp⟩, by simp⟩ .nil)⟩

/-- C77 applies to these ranges, at the energy of the resonance that is left out. -/
example (K : Constants) (lib : CoulombLibrary) (tables : InterpolationLibrary) (reactions : ReactionLibrary)
    (initialBreitWigner : Channel → Verif.BreitWigner.Cache)
    (initial : (g : SpinGroup) → MatrixCache g.channels.length) (incident target : Str) (multi : Bool) :
    ∃ R R' m m' R₁ R₁', fromENDF K lib tables reactions initialBreitWigner initial 1 1 incident target
        ⟨1, 20, 1, if multi then 2 else 1, 1, none, if multi then .multiLevel idle else .singleLevel idle⟩
          = .ok R ∧
      fromENDF K lib tables reactions initialBreitWigner initial 1 1 incident target
        ⟨1, 20, 1, if multi then 2 else 1, 1, none, if multi then .multiLevel busy else .singleLevel busy⟩
          = .ok R' ∧ R.call K lib 9 = .ok (m, R₁) ∧ R'.call K lib 9 = .ok (m', R₁') ∧
      ∀ id, (m id).getD 0 = (m' id).getD 0 := by
  obtain ⟨R, R', h1, h2, h3⟩ := C77_breit_wigner_accepted (K := K) (lib := lib) (tables := tables)
    (reactions := reactions) (initialBreitWigner := initialBreitWigner) (initial := initial)
    (elementaryCharge := 1) (incident := incident) (target := target) (nro := none) (multi := multi)
    (range := ⟨1, 20, 1, if multi then 2 else 1, 1, none,
      if multi then .multiLevel idle else .singleLevel idle⟩)
    ⟨rfl, rfl⟩ rfl .none idle_physical idle_leftOut
  obtain ⟨m, m', R₁, R₁', h4, h5, h6⟩ := h3 9 (by norm_num) (by norm_num) fun _ _ =>
    ⟨fun _ => .ok (1 / 2), fun _ => .ok (1 / 2), radii _, ⟨1 / 2, by norm_num, rfl⟩, ⟨1 / 2, by norm_num, rfl⟩,
      1 / 2, rfl⟩
  exact ⟨R, R', m, m', R₁, R₁', h1, h2, h4, h5, h6⟩

end BreitWignerExample

end Verif.Endf
