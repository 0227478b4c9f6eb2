import Verif.Props.UnresolvedRange

/-!
# Property C67: unresolved ranges that make sense physically are accepted
-/

namespace Verif.Endf

open Spec (neutronWaveNumber waveConstant AverageGroup)

variable {K : Constants} {lib : CoulombLibrary} {tables : InterpolationLibrary}
  {neutronMass E : ℝ} {incident target : Str}

/-- Linear interpolation lies between the points. -/
theorem interpolates_pos {xs : List ℝ} {rows : List Unresolved.Resonance} {x y : ℝ}
    {f : Unresolved.Resonance → ℝ} (h : Spec.Interpolates .linLin xs (rows.map f) x y) :
    ((∀ r ∈ rows, 0 < f r) → 0 < y) ∧ ((∀ r ∈ rows, 0 ≤ f r) → 0 ≤ y) := by
  obtain ⟨i, x0, y0, x1, y1, h0, h1, hx0, hx1, rfl⟩ := h
  have hmem : ∀ (j : ℕ) (a b : ℝ), (xs.zip (rows.map f))[j]? = some (a, b) → ∃ r ∈ rows, f r = b := by
    intro j a b hj
    have := List.mem_of_getElem? hj
    obtain ⟨r, hr, e⟩ := List.mem_map.mp (List.of_mem_zip this).2
    exact ⟨r, hr, e⟩
  obtain ⟨r0, hr0, rfl⟩ := hmem _ _ _ h0
  obtain ⟨r1, hr1, rfl⟩ := hmem _ _ _ h1
  have t0 : 0 ≤ (x - x0) / (x1 - x0) := div_nonneg (by linarith) (by linarith)
  have t1 : (x - x0) / (x1 - x0) ≤ 1 := div_le_one_of_le₀ (by linarith) (by linarith)
  have e : Spec.Law.between x0 (f r0) x1 (f r1) x .linLin
      = (1 - (x - x0) / (x1 - x0)) * f r0 + (x - x0) / (x1 - x0) * f r1 := by
    simp only [Spec.Law.between]
    ring
  rw [e]
  generalize (x - x0) / (x1 - x0) = t at t0 t1
  constructor
  · intro hp
    have p0 := hp r0 hr0
    have p1 := hp r1 hr1
    by_cases ht : t = 0
    · rw [ht]
      linarith
    · have : 0 < t := lt_of_le_of_ne t0 (Ne.symm ht)
      have := mul_pos this p1
      have := mul_nonneg (sub_nonneg.mpr t1) p0.le
      linarith
  · intro hp
    have := mul_nonneg t0 (hp r1 hr1)
    have := mul_nonneg (sub_nonneg.mpr t1) (hp r0 hr0)
    linarith

theorem table_exists (hm : Spec.Makes tables.linLin) {a : AverageGroup}
    (hd : 1 ≤ a.degrees.elastic ∧ a.degrees.elastic ≤ 4 ∧ a.degrees.capture ≤ 4 ∧
      a.degrees.fission ≤ 4 ∧ a.degrees.competition ≤ 4)
    (hr : 2 ≤ a.rows.length ∧ (a.rows.map (·.energy)).Pairwise (· < ·)) :
    ∃ t, Unresolved.makeTable tables.linLin a.rows a.degrees = .ok t ∧
      ∀ E, (∃ r ∈ a.rows, r.energy ≤ E) → (∃ r ∈ a.rows, E ≤ r.energy) → ∃ r, t.call E = .ok r := by
  have hf : ∀ f : Unresolved.Resonance → ℝ, ∃ g,
      tables.linLin (a.rows.map (·.energy)) (a.rows.map f) = .ok g ∧
      ∀ E, (∃ r ∈ a.rows, r.energy ≤ E) → (∃ r ∈ a.rows, E ≤ r.energy) → ∃ r, g E = .ok r := by
    intro f
    obtain ⟨g, h1, h2⟩ := hm (a.rows.map (·.energy)) (a.rows.map f) (by simp) (by simpa using hr.1) hr.2
    refine ⟨g, h1, ?_⟩
    rintro E ⟨r, hr, e⟩ ⟨r', hr', e'⟩
    exact h2 E ⟨_, List.mem_map_of_mem hr, e⟩ ⟨_, List.mem_map_of_mem hr', e'⟩
  obtain ⟨f1, h1, k1⟩ := hf (·.spacing)
  obtain ⟨f2, h2, k2⟩ := hf (·.elastic)
  obtain ⟨f3, h3, k3⟩ := hf (·.capture)
  obtain ⟨f4, h4, k4⟩ := hf (·.fission)
  obtain ⟨f5, h5, k5⟩ := hf (·.competition)
  obtain ⟨d1, d2, d3, d4, d5⟩ := hd
  refine ⟨⟨a.rows, a.degrees, f1, f2, f3, f4, f5⟩, ?_, ?_⟩
  · unfold Unresolved.makeTable Unresolved.verifyTable
    simp only [bind, Except.bind]
    erw [h1]
    simp only
    erw [h2]
    simp only
    erw [h3]
    simp only
    erw [h4]
    simp only
    erw [h5]
    simp only
    rw [if_neg (by omega), if_neg (by omega), if_neg (by omega), if_neg (by omega), if_neg (by omega)]
    rfl
  · intro E e1 e2
    obtain ⟨y1, z1⟩ := k1 E e1 e2
    obtain ⟨y2, z2⟩ := k2 E e1 e2
    obtain ⟨y3, z3⟩ := k3 E e1 e2
    obtain ⟨y4, z4⟩ := k4 E e1 e2
    obtain ⟨y5, z5⟩ := k5 E e1 e2
    refine ⟨⟨E, y1, y2, y3, y4, y5⟩, ?_⟩
    unfold Unresolved.Table.call
    simp only [bind, Except.bind, z1, z2, z3, z4, z5]
    rfl

theorem unresolvedSystem_exists {J : Type} {spin : J → ℚ} {table : List ℝ → J → Outcome Unresolved.Table}
    {energies : List ℝ} {nro : Option (ℝ → Outcome ℝ)} {naps : ℤ} {p : UnresolvedParameters J} {A : ℝ}
    (rows : J → List Unresolved.Resonance) (degrees : J → Data ℕ)
    (ht : ∀ j, table energies j = Unresolved.makeTable tables.linLin (rows j) (degrees j))
    (hm : Spec.Makes tables.linLin)
    (h : Spec.PhysicalAverages neutronMass A ⟨p.spin, p.ap, p.lValues.map UnresolvedLValue.awri,
      p.lValues.flatMap fun lv => lv.jValues.map fun j => ⟨lv.l, spin j, rows j, degrees j⟩⟩)
    (hr : ∃ channel scattering, Spec.IsRadii p.ap nro naps (A * neutronMass) channel scattering) :
    ∃ s, makeLegacyUnresolvedCompoundSystem spin table energies neutronMass incident target nro naps p
      = .ok s := by
  obtain ⟨channel, scattering, hr⟩ := hr
  obtain ⟨radii, q1, -, -, -⟩ := radii_of_isRadii (mul_pos h.awri.1 h.mass).le hr
  have hne : p.lValues ≠ [] := by
    intro h0
    apply h.some
    simp only [h0, List.flatMap_nil]
  obtain ⟨first, rest, hfirst⟩ := List.exists_cons_of_ne_nil hne
  have hA : first.awri = A := h.awri.2 _ (List.mem_map_of_mem (by rw [hfirst]; exact List.mem_cons_self))
  obtain ⟨pair, hpair⟩ : ∃ pair, incidentPair neutronMass incident target A p.spin = .ok pair :=
    ⟨_, incidentPair_eq incident target p.spin h.mass h.awri.1.le⟩
  obtain ⟨gss, hgss⟩ : ∃ gss, p.lValues.mapM (makeLegacyUnresolvedSpinGroups spin table pair radii energies)
      = .ok gss := by
    refine mapM_exists.mpr fun lv hlv => ?_
    unfold makeLegacyUnresolvedSpinGroups
    refine mapM_exists.mpr fun j hj => ?_
    have hmem : (⟨lv.l, spin j, rows j, degrees j⟩ : AverageGroup) ∈ p.lValues.flatMap fun lv =>
        lv.jValues.map fun j => (⟨lv.l, spin j, rows j, degrees j⟩ : AverageGroup) :=
      List.mem_flatMap.mpr ⟨lv, hlv, List.mem_map_of_mem hj⟩
    obtain ⟨t, h1, -⟩ := table_exists hm (h.degrees _ hmem) (h.rows _ hmem)
    simp only [bind, Except.bind]
    rw [ht j, h1]
    exact ⟨_, rfl⟩
  have hg := unresolvedGroups_ok rows degrees ht hgss
  obtain ⟨s, hs⟩ : ∃ s, LegacySystem.make Unresolved.SpinGroup.channel gss.flatten = .ok s := by
    rw [Verif.BreitWigner.C35_accepted]
    constructor
    · intro h0
      rw [h0] at hg
      exact h.some (List.forall₂_nil_right_iff.mp hg)
    · have e : (gss.flatten.map fun g => (g.channel.numbers.l, g.channel.numbers.J))
          = (p.lValues.flatMap fun lv => lv.jValues.map fun j =>
            (⟨lv.l, spin j, rows j, degrees j⟩ : AverageGroup)).map fun g => (g.l, g.J) := by
        clear hgss h
        generalize gss.flatten = groups at hg ⊢
        generalize (p.lValues.flatMap fun lv => lv.jValues.map fun j =>
            (⟨lv.l, spin j, rows j, degrees j⟩ : AverageGroup)) = ags at hg ⊢
        induction hg with
        | nil => rfl
        | cons h1 _ ih =>
          obtain ⟨parity, t, -, rfl⟩ := h1
          rw [List.map_cons, List.map_cons, ih]
          rfl
      rw [e]
      exact h.distinct
  refine ⟨s, ?_⟩
  unfold makeLegacyUnresolvedCompoundSystem
  rw [hfirst] at hgss ⊢
  simp only [bind, Except.bind]
  rw [hA, hpair]
  simp only
  rw [q1]
  simp only
  rw [hgss]
  exact hs

/-- Each group can be evaluated. -/
theorem averageGroup_exists {d : Spec.AverageParameters} {A a b : ℝ} {pair : ParticlePair}
    {radii : ChannelRadii} {ag : AverageGroup} {g : Unresolved.SpinGroup}
    (hm : Spec.Makes tables.linLin) (hc : Spec.Conforms .linLin tables.linLin)
    (hg : IsAverageGroup tables pair radii ag g)
    (h : Spec.PhysicalAverages neutronMass A d) (hag : ag ∈ d.groups)
    (hpair : incidentPair neutronMass incident target A d.spin = .ok pair)
    (ha : 0 < a ∧ radii.penetrability E = .ok a) (hb : radii.phaseShift E = .ok b) (hE : 0 < E)
    (hrow : (∃ r ∈ ag.rows, r.energy ≤ E) ∧ ∃ r ∈ ag.rows, E ≤ r.energy) (m : LegacyMap) :
    ∃ v, g.evaluate K lib E m = .ok v := by
  obtain ⟨parity, t, h1, rfl⟩ := hg
  have hl := h.l ag hag
  have hk : (plainChannel .neutron pair pair ⟨ag.l, 1 / 2, ag.J, parity⟩ radii).waveNumber K E
      = neutronWaveNumber (waveConstant K.hbar neutronMass) A E := lChannel_waveNumber hpair radii ag.l E
  have hkpos := waveNumber_pos K h.mass h.awri.1 hE.ne'
  have e1 := neutron_penetrability_of (K := K) (lib := lib)
    (c := plainChannel .neutron pair pair ⟨ag.l, 1 / 2, ag.J, parity⟩ radii) rfl hl ha.2
  obtain ⟨φ, e2⟩ := neutron_phaseShift_of (K := K) (lib := lib)
    (c := plainChannel .neutron pair pair ⟨ag.l, 1 / 2, ag.J, parity⟩ radii) (E := E) rfl hl hb
  obtain ⟨t', h2, h3⟩ := table_exists hm (h.degrees ag hag) (h.rows ag hag)
  obtain rfl := Except.ok.inj (h1.symm.trans h2)
  obtain ⟨r, hr⟩ := h3 E hrow.1 hrow.2
  have hD : 0 < r.spacing ∧ 0 ≤ r.elastic ∧ 0 < r.capture ∧ 0 ≤ r.fission ∧ 0 ≤ r.competition := by
    have key : ∀ (x : Unresolved.Resonance), Spec.IsAverage E ag x → 0 < x.spacing ∧ 0 ≤ x.elastic ∧
        0 < x.capture ∧ 0 ≤ x.fission ∧ 0 ≤ x.competition := fun x hx =>
      ⟨(interpolates_pos hx.spacing).1 fun r hr => (h.widths ag hag r hr).1,
        (interpolates_pos hx.elastic).2 fun r hr => (h.widths ag hag r hr).2.1,
        (interpolates_pos hx.capture).1 fun r hr => (h.widths ag hag r hr).2.2.1,
        (interpolates_pos hx.fission).2 fun r hr => (h.widths ag hag r hr).2.2.2.1,
        (interpolates_pos hx.competition).2 fun r hr => (h.widths ag hag r hr).2.2.2.2⟩
    exact key r (call_average hc h1 hr
      ((interpolates_pos (call_spacing hc h1 hr)).1 fun r hr => (h.widths ag hag r hr).1).ne')
  obtain ⟨q1, q2, q3, q4, q5, q6, q7⟩ := Unresolved.makeTable_ok h1
  have hP := hardSphere_pos (mul_pos hkpos ha.1) ag.l
  obtain ⟨i, hi⟩ := Unresolved.C37_exists (widths := ⟨r.elastic * Real.sqrt E * (ag.degrees.elastic
      * (Spec.hardSphere (neutronWaveNumber (waveConstant K.hbar neutronMass) A E * a) ag.l).1
      / (neutronWaveNumber (waveConstant K.hbar neutronMass) A E * a)), r.capture, r.fission,
      r.competition⟩) (degrees := ag.degrees)
    ⟨(h.degrees ag hag).1, (h.degrees ag hag).2.1, fun _ => (h.degrees ag hag).2.2.2.1,
      fun _ => (h.degrees ag hag).2.2.2.2⟩
    (by have := hD.2.1; have := ha.1; positivity) hD.2.2.1.le hD.2.2.2.1 hD.2.2.2.2 (.inr hD.2.2.1)
  unfold Unresolved.SpinGroup.evaluate
  simp only [bind, Except.bind]
  rw [e1]
  simp only
  rw [e2]
  simp only
  rw [show (plainChannel .neutron pair pair ⟨ag.l, 1 / 2, ag.J, parity⟩ radii).radii = radii from rfl, ha.2]
  simp only
  rw [hr]
  simp only
  rw [hk, if_neg (by
    rintro (h | h | h | h)
    · exact hkpos.ne' h
    · exact (mul_pos hkpos ha.1).ne' h
    · linarith
    · exact hD.1.ne' h)]
  rw [q2]
  erw [hi]
  exact ⟨_, rfl⟩

/-- The system can be evaluated. -/
theorem unresolvedSystem_evaluates {d : Spec.AverageParameters} {A a b : ℝ} {pair : ParticlePair}
    {radii : ChannelRadii} {groups : List Unresolved.SpinGroup} {s : LegacySystem Unresolved.SpinGroup}
    (hm : Spec.Makes tables.linLin) (hc : Spec.Conforms .linLin tables.linLin)
    (h : Spec.PhysicalAverages neutronMass A d)
    (hpair : incidentPair neutronMass incident target A d.spin = .ok pair)
    (hs : LegacySystem.make Unresolved.SpinGroup.channel groups = .ok s)
    (hg : List.Forall₂ (IsAverageGroup tables pair radii) d.groups groups)
    (ha : 0 < a ∧ radii.penetrability E = .ok a) (hb : radii.phaseShift E = .ok b) (hE : 0 < E)
    (hrow : ∀ ag ∈ d.groups, (∃ r ∈ ag.rows, r.energy ≤ E) ∧ ∃ r ∈ ag.rows, E ≤ r.energy)
    (m : LegacyMap) :
    ∃ v, s.evaluate K lib Unresolved.SpinGroup.channel (Unresolved.SpinGroup.evaluate K lib E) E m
      = .ok v := by
  obtain ⟨c1, c2, c3⟩ := Verif.BreitWigner.C35_contents hs
  obtain ⟨a1, a2⟩ := (Verif.BreitWigner.C35_accepted _ _).mp ⟨s, hs⟩
  obtain ⟨⟨m1, gs'⟩, hv⟩ := evaluateGroups_exists (step := Unresolved.SpinGroup.evaluate K lib E)
    (gs := groups) (fun g hgm m => by
      obtain ⟨ag, hag, hgg⟩ := forall₂_mem_right hg hgm
      exact averageGroup_exists hm hc hgg h hag hpair ha hb hE (hrow ag hag) m) m
  obtain ⟨hch, -⟩ := LegacySystem.evaluateGroups_sum (channel := Unresolved.SpinGroup.channel)
    (R := fun _ _ => True) (fun g _ m m' g' hm => by
      obtain ⟨P, φ', R, t, r, h1, h2, h3, h4, h5, h6, h7, h8, h9, h10, h11⟩ := Unresolved.evaluate_ok hm
      exact ⟨by rw [h5], _, trivial, fun id => by rw [h11 id, add_assoc, add_assoc]⟩) hv
  obtain ⟨first, rest, hfirst⟩ := List.exists_cons_of_ne_nil a1
  obtain ⟨first', rest', rfl⟩ : ∃ first' rest', gs' = first' :: rest' := by
    cases gs' with
    | nil => rw [hfirst] at hch; cases hch
    | cons x y => exact ⟨x, y, rfl⟩
  have hc : first'.channel = first.channel := by
    rw [hfirst] at hch
    exact (List.cons.inj hch).1
  have hlmax : s.lmax ≤ 4 := by
    obtain ⟨g, hgm, e⟩ := c3
    obtain ⟨ag, hag, parity, t, -, rfl⟩ := forall₂_mem_right hg hgm
    exact e ▸ h.l ag hag
  obtain ⟨ag, hag, parity, t, -, hf⟩ := forall₂_mem_right hg (show first ∈ groups by
    rw [hfirst]; exact List.mem_cons_self)
  obtain ⟨v, hpot⟩ := LegacySystem.potential_exists (lib := lib)
    (ratio := first'.channel.waveNumber K E * b) hlmax
  refine ⟨_, LegacySystem.evaluate_of (by rw [c1]; exact hv) (radius := b) ?_ ?_ hpot⟩
  · rw [hc, hf]
    exact hb
  · rw [hc, hf]
    have := lChannel_waveNumber (K := K) hpair radii ag.l E
    exact (this.trans_ne (waveNumber_pos K h.mass h.awri.1 hE.ne').ne')

variable {reactions : ReactionLibrary} {initialBreitWigner : Channel → Verif.BreitWigner.Cache}
  {initial : (g : SpinGroup) → MatrixCache g.channels.length} {elementaryCharge : ℝ} {range : Range}
  {nro : Option (ℝ → Outcome ℝ)}

/-- C67: an unresolved range that makes sense physically is accepted, and it can be evaluated at every
positive energy at which it has a radius and that is inside the tables. -/
theorem C67_accepted {A : ℝ} {d : Spec.AverageParameters}
    (hm : Spec.Makes tables.linLin) (hc : Spec.Conforms .linLin tables.linLin) (htype : range.type = 2)
    (hd : Spec.averageParameters range.lower range.upper range.parameters = some d)
    (ht : Option.Rel (Spec.IsRadiusTable tables) range.scatteringRadius nro)
    (h : Spec.PhysicalAverages neutronMass A d) {channel scattering : ℝ → Outcome ℝ}
    (hr : Spec.IsRadii d.ap nro range.naps (A * neutronMass) channel scattering) :
    ∃ R, fromENDF K lib tables reactions initialBreitWigner initial neutronMass elementaryCharge incident
        target range = .ok R ∧
      ∀ E, 0 < E → (∃ a, 0 < a ∧ channel E = .ok a) → (∃ b, scattering E = .ok b) →
        (∀ g ∈ d.groups, (∃ r ∈ g.rows, r.energy ≤ E) ∧ ∃ r ∈ g.rows, E ≤ r.energy) →
        ∃ v, R.call K lib E = .ok v := by
  obtain ⟨radii, q1, q2, q3, q4⟩ := radii_of_isRadii (mul_pos h.awri.1 h.mass).le hr
  have hcall : ∀ (s : LegacySystem Unresolved.SpinGroup) (pair : ParticlePair)
      (groups : List Unresolved.SpinGroup),
      incidentPair neutronMass incident target A d.spin = .ok pair →
      LegacySystem.make Unresolved.SpinGroup.channel groups = .ok s →
      List.Forall₂ (IsAverageGroup tables pair radii) d.groups groups →
      ∀ E, 0 < E → (∃ a, 0 < a ∧ channel E = .ok a) → (∃ b, scattering E = .ok b) →
        (∀ g ∈ d.groups, (∃ r ∈ g.rows, r.energy ≤ E) ∧ ∃ r ∈ g.rows, E ≤ r.energy) →
        ∃ v, Reconstructor.call K lib ⟨range.lower, range.upper, .unresolved s⟩ E = .ok v := by
    rintro s pair groups k1 k3 k4 E hE ⟨a, ha, hca⟩ ⟨b, hb⟩ hrow
    obtain ⟨v, hv⟩ := unresolvedSystem_evaluates (K := K) (lib := lib) hm hc h k1 k3 k4
      ⟨ha, by rw [q2]; exact hca⟩ (by rw [q4]; exact hb) hE hrow fun _ => none
    unfold Reconstructor.call
    split
    · unfold SystemVariant.evaluate
      exact ⟨_, by simp only [bind, Except.bind]; erw [hv]; rfl⟩
    · exact ⟨_, rfl⟩
  have key : ∀ {J : Type} (spin : J → ℚ) (table : List ℝ → J → Outcome Unresolved.Table)
      (energies : List ℝ) (p : UnresolvedParameters J)
      (rows : J → List Unresolved.Resonance) (degrees : J → Data ℕ)
      (_ : ∀ j, table energies j = Unresolved.makeTable tables.linLin (rows j) (degrees j))
      (_ : d = ⟨p.spin, p.ap, p.lValues.map UnresolvedLValue.awri,
        p.lValues.flatMap fun lv => lv.jValues.map fun j => ⟨lv.l, spin j, rows j, degrees j⟩⟩),
      ∃ s, makeLegacyUnresolvedCompoundSystem spin table energies neutronMass incident target nro range.naps p
        = .ok s ∧ ∀ E, 0 < E → (∃ a, 0 < a ∧ channel E = .ok a) → (∃ b, scattering E = .ok b) →
        (∀ g ∈ d.groups, (∃ r ∈ g.rows, r.energy ≤ E) ∧ ∃ r ∈ g.rows, E ≤ r.energy) →
        ∃ v, Reconstructor.call K lib ⟨range.lower, range.upper, .unresolved s⟩ E = .ok v := by
    rintro J spin table energies p rows degrees ht rfl
    obtain ⟨s, hs⟩ := unresolvedSystem_exists (incident := incident) (target := target) rows degrees ht hm h
      ⟨channel, scattering, hr⟩
    obtain ⟨first, rest, pair, radii', groups, e1, e2, e3, e4, e5⟩ := unresolvedSystem_ok (tables := tables)
      rows degrees ht hs
    have hf : first.awri = A := h.awri.2 _ (by rw [e1]; exact List.mem_cons_self)
    rw [hf] at e2 e3
    obtain rfl := Except.ok.inj (q1.symm.trans e3)
    exact ⟨s, hs, hcall s pair groups e2 e4 e5⟩
  unfold fromENDF
  rw [radiusTable_of ht, htype]
  simp only [bind, Except.bind]
  rw [if_neg (by norm_num), if_true]
  generalize range.parameters = parameters at hd
  unfold Spec.averageParameters at hd
  split at hd
  · obtain rfl := Option.some.inj hd
    rename_i p
    obtain ⟨s, hs, hv⟩ := key UnresolvedConstantJ.spin (constantTable tables) [range.lower, range.upper] p
      (fun j : UnresolvedConstantJ => [⟨range.lower, j.spacing, j.neutronWidth, j.gammaWidth,
        j.fissionWidth, j.competitiveWidth⟩, ⟨range.upper, j.spacing, j.neutronWidth, j.gammaWidth,
        j.fissionWidth, j.competitiveWidth⟩]) UnresolvedConstantJ.degrees (fun j => rfl) rfl
    simp only
    rw [hs]
    exact ⟨_, rfl, hv⟩
  · obtain rfl := Option.some.inj hd
    rename_i p
    obtain ⟨s, hs, hv⟩ := key UnresolvedFissionJ.spin (fissionTable tables) p.energies p
      (fun j : UnresolvedFissionJ => (p.energies.zip j.fissionWidths).map fun row =>
        ⟨row.1, j.spacing, j.neutronWidth, j.gammaWidth, row.2, j.competitiveWidth⟩)
      UnresolvedFissionJ.degrees (fun j => by
        unfold fissionTable
        rw [List.map_zip_eq_zipWith]
        rfl) rfl
    simp only
    rw [hs]
    exact ⟨_, rfl, hv⟩
  · obtain rfl := Option.some.inj hd
    rename_i p
    obtain ⟨s, hs, hv⟩ := key UnresolvedDependentJ.spin (dependentTable tables) [range.lower, range.upper] p
      UnresolvedDependentJ.rows UnresolvedDependentJ.degrees (fun j => rfl) rfl
    simp only
    rw [hs]
    exact ⟨_, rfl, hv⟩
  · cases hd

/-! ### An example: constant and energy-dependent parameters of a target without spin -/

namespace UnresolvedExample

/-- Linear interpolation as a table of the library. -/
theorem linear_conforms : Spec.Conforms .linLin Unresolved.Example.linear := by
  intro xs ys f hf x y hy
  cases hf
  unfold Spec.Interpolates
  revert hy
  generalize xs.zip ys = table
  intro hy
  induction table with
  | nil => simp [Unresolved.Example.linearAt] at hy
  | cons a t ih =>
    cases t with
    | nil => simp [Unresolved.Example.linearAt] at hy
    | cons b rest =>
      change Unresolved.Example.linearAt (a :: b :: rest) x = _ at hy
      rw [Unresolved.Example.linearAt] at hy
      split_ifs at hy with hE
      · refine ⟨0, a.1, a.2, b.1, b.2, rfl, rfl, hE.1, hE.2, ?_⟩
        rw [← Except.ok.inj hy]
        simp only [Spec.Law.between]
        ring
      · obtain ⟨i, x0, y0, x1, y1, h⟩ := ih hy
        exact ⟨i + 1, x0, y0, x1, y1, h⟩

theorem linear_makes : Spec.Makes Unresolved.Example.linear := by
  intro xs ys hlen h2 hx
  refine ⟨_, rfl, ?_⟩
  have key : ∀ (table : List (ℝ × ℝ)) (x : ℝ), table ≠ [] → (table.map Prod.fst).Pairwise (· < ·) →
      (∀ a ∈ table.head?, a.1 < x) → (∃ b ∈ table, x ≤ b.1) →
      ∃ y, Unresolved.Example.linearAt table x = .ok y := by
    intro table x h0 hp hlow hup
    induction table with
    | nil => exact absurd rfl h0
    | cons a t ih =>
      have ha := hlow a rfl
      obtain ⟨b, hb, hxb⟩ := hup
      cases t with
      | nil =>
        rw [List.mem_singleton.mp hb] at hxb
        linarith
      | cons c rest =>
        rw [Unresolved.Example.linearAt]
        by_cases hc : a.1 ≤ x ∧ x ≤ c.1
        · rw [if_pos hc]
          exact ⟨_, rfl⟩
        · rw [if_neg hc]
          have hcx : c.1 < x := by
            by_contra h
            exact hc ⟨ha.le, not_lt.mp h⟩
          refine ih (by simp) (List.pairwise_cons.mp hp).2 ?_ ?_
          · intro d hd
            cases hd
            exact hcx
          · rcases List.mem_cons.mp hb with rfl | hb
            · linarith
            · exact ⟨b, hb, hxb⟩
  rintro x ⟨a, ha, hax⟩ ⟨b, hb, hxb⟩
  have hfst : (xs.zip ys).map Prod.fst = xs := List.map_fst_zip hlen.le
  have hb' : ∃ b ∈ xs.zip ys, x ≤ b.1 := by
    rw [← hfst] at hb
    obtain ⟨p, hp, rfl⟩ := List.mem_map.mp hb
    exact ⟨p, hp, hxb⟩
  generalize xs.zip ys = table at hfst hb'
  subst hfst
  match table, h2, hb' with
  | p :: q :: rest, _, hb' =>
    by_cases hpx : p.1 < x
    · exact key _ x (by simp) hx (by intro a ha; cases ha; exact hpx) hb'
    · have hpa : p.1 ≤ a := by
        rcases List.mem_cons.mp ha with rfl | ha
        · exact le_rfl
        · exact ((List.pairwise_cons.mp hx).1 a ha).le
      have hpq : p.1 < q.1 := (List.pairwise_cons.mp hx).1 q.1 (by simp)
      rw [Unresolved.Example.linearAt, if_pos ⟨hpa.trans hax, (not_lt.mp hpx).trans hpq.le⟩]
      exact ⟨_, rfl⟩

/-- A library with linear interpolation only. -/
noncomputable def library : InterpolationLibrary :=
  ⟨fun _ _ => .error .throws, Unresolved.Example.linear, fun _ _ => .error .throws,
    fun _ _ => .error .throws, fun _ _ => .error .throws, fun _ => .error .throws⟩

/-- Average parameters that depend on the energy for l = 0, J = 1/2 and for l = 1, J = 3/2. -/
noncomputable def evaluation : UnresolvedParameters UnresolvedDependentJ :=
  ⟨0, 1 / 2, [], [⟨0, 10, [⟨1 / 2, [⟨1, 1, 1 / 1000, 1 / 20, 1 / 100, 1 / 10⟩,
    ⟨10, 2, 1 / 500, 1 / 20, 1 / 50, 1 / 5⟩, ⟨100, 3, 1 / 400, 1 / 20, 1 / 50, 1 / 5⟩], ⟨1, 0, 2, 4⟩⟩]⟩,
    ⟨1, 10, [⟨3 / 2, [⟨1, 1, 1 / 1000, 1 / 20, 0, 0⟩, ⟨100, 2, 1 / 500, 1 / 20, 0, 0⟩], ⟨2, 0, 0, 0⟩⟩]⟩]⟩

noncomputable def endfRange : Range := ⟨1, 100, 2, 2, 1, none, .unresolvedDependent evaluation⟩

/-- The average parameters of the range. -/
noncomputable def averages : Spec.AverageParameters :=
  ⟨0, 1 / 2, [10, 10], [⟨0, 1 / 2, [⟨1, 1, 1 / 1000, 1 / 20, 1 / 100, 1 / 10⟩,
    ⟨10, 2, 1 / 500, 1 / 20, 1 / 50, 1 / 5⟩, ⟨100, 3, 1 / 400, 1 / 20, 1 / 50, 1 / 5⟩], ⟨1, 0, 2, 4⟩⟩,
    ⟨1, 3 / 2, [⟨1, 1, 1 / 1000, 1 / 20, 0, 0⟩, ⟨100, 2, 1 / 500, 1 / 20, 0, 0⟩], ⟨2, 0, 0, 0⟩⟩]⟩

theorem averages_eq : Spec.averageParameters endfRange.lower endfRange.upper endfRange.parameters
    = some averages := rfl

theorem physical : Spec.PhysicalAverages 1 10 averages where
  mass := one_pos
  awri := by simp [averages]
  some := by simp [averages]
  distinct := by simp [averages]
  l := by simp [averages]
  degrees := by simp [averages]
  rows := by
    intro g hg
    simp only [averages, List.mem_cons, List.not_mem_nil, or_false] at hg
    rcases hg with rfl | rfl <;> norm_num
  widths := by
    intro g hg r hr
    simp only [averages, List.mem_cons, List.not_mem_nil, or_false] at hg
    rcases hg with rfl | rfl <;> simp only [List.mem_cons, List.not_mem_nil, or_false] at hr
    · rcases hr with rfl | rfl | rfl <;> norm_num
    · rcases hr with rfl | rfl <;> norm_num

/-- The range is accepted, and its cross sections at 5 eV are those of the ENDF manual. -/
theorem cross_sections (K : Constants) (lib : CoulombLibrary)
    (reactions : ReactionLibrary) (initialBreitWigner : Channel → Verif.BreitWigner.Cache)
    (initial : (g : SpinGroup) → MatrixCache g.channels.length) :
    ∃ R m R' a φ rs, fromENDF K lib library reactions initialBreitWigner initial 1 1 ("n".toList) ("X".toList)
        endfRange = .ok R ∧ R.call K lib 5 = .ok (m, R') ∧
      Spec.IsUnresolved (neutronWaveNumber (waveConstant K.hbar 1) 10 5) a 5 φ 1 ("n".toList) ("X".toList)
        averages rs (fun id => m (.inr id)) ∧ rs.length = 2 := by
  obtain ⟨R, h1, h2⟩ := C67_accepted (K := K) (lib := lib) (tables := library) (reactions := reactions)
    (initialBreitWigner := initialBreitWigner) (initial := initial) (elementaryCharge := 1)
    (incident := "n".toList) (target := "X".toList) (range := endfRange)
    linear_makes linear_conforms rfl averages_eq .none physical
    (channel := fun _ => .ok (1 / 2)) (scattering := fun _ => .ok (1 / 2)) (BreitWignerExample.radii _)
  obtain ⟨⟨m, R'⟩, hv⟩ := h2 5 (by norm_num) ⟨1 / 2, by norm_num, rfl⟩ ⟨1 / 2, rfl⟩ (by
    intro g hg
    simp only [averages, List.mem_cons, List.not_mem_nil, or_false] at hg
    rcases hg with rfl | rfl
    · exact ⟨⟨_, List.mem_cons_self, by norm_num⟩, _, List.mem_cons_of_mem _ List.mem_cons_self, by norm_num⟩
    · exact ⟨⟨_, List.mem_cons_self, by norm_num⟩, _, List.mem_cons_of_mem _ List.mem_cons_self, by norm_num⟩)
  obtain ⟨nro, channel, scattering, a, b, φ, lmax, rs, k1, k2, k3, k4, k5, ⟨g, k6, k6'⟩, k7, k8, k9, k10⟩ :=
    C67_cross_sections h1 averages_eq physical.awri.2 linear_conforms
      (by unfold endfRange; simp [Spec.prescribedRadii])
      ⟨by norm_num [endfRange], by norm_num [endfRange]⟩ hv
  have hl : lmax = 1 := by
    have := k5 (averages.groups[1]) (by simp [averages])
    have e : averages.groups[1].l = 1 := rfl
    have : g.l ≤ 1 := by
      simp only [averages, List.mem_cons, List.not_mem_nil, or_false] at k6
      rcases k6 with rfl | rfl <;> simp
    omega
  subst hl
  exact ⟨R, m, R', a, φ, rs, h1, hv, k9, k8.length_eq.symm⟩

end UnresolvedExample

end Verif.Endf
