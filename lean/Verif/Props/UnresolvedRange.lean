import Verif.Spec.UnresolvedRange
import Verif.Props.BreitWignerAccepted
import Verif.Props.UnresolvedGrid

/-!
# Property C67: the cross sections of an unresolved range
-/

namespace Verif.Endf

open Spec (neutronWaveNumber waveConstant AverageGroup)

variable {K : Constants} {lib : CoulombLibrary} {tables : InterpolationLibrary}
  {neutronMass E : ℝ} {incident target : Str}

/-- A spin group for the average parameters of one l and J. -/
def IsAverageGroup (tables : InterpolationLibrary) (pair : ParticlePair) (radii : ChannelRadii)
    (a : AverageGroup) (g : Unresolved.SpinGroup) : Prop :=
  ∃ parity t, Unresolved.makeTable tables.linLin a.rows a.degrees = .ok t ∧
    g = ⟨plainChannel .neutron pair pair ⟨a.l, 1 / 2, a.J, parity⟩ radii, t⟩

theorem unresolvedGroups_ok {J : Type} {spin : J → ℚ} {table : List ℝ → J → Outcome Unresolved.Table}
    {energies : List ℝ} {pair : ParticlePair} {radii : ChannelRadii} {lvs : List (UnresolvedLValue J)}
    {gss : List (List Unresolved.SpinGroup)} (rows : J → List Unresolved.Resonance) (degrees : J → Data ℕ)
    (ht : ∀ j, table energies j = Unresolved.makeTable tables.linLin (rows j) (degrees j))
    (h : lvs.mapM (makeLegacyUnresolvedSpinGroups spin table pair radii energies) = .ok gss) :
    List.Forall₂ (IsAverageGroup tables pair radii)
      (lvs.flatMap fun lv => lv.jValues.map fun j => ⟨lv.l, spin j, rows j, degrees j⟩) gss.flatten := by
  have h4 := mapM_ok.mp h
  clear h
  induction h4 with
  | nil => exact .nil
  | @cons lv gs lvs gss k1 k2 ih =>
    rw [List.flatMap_cons, List.flatten_cons]
    refine List.rel_append ?_ ih
    unfold makeLegacyUnresolvedSpinGroups at k1
    rw [List.forall₂_map_left_iff]
    refine (mapM_ok.mp k1).imp ?_
    intro j g hg
    dsimp only at hg
    obtain ⟨t, e1, hg⟩ := bind_ok.mp hg
    cases hg
    exact ⟨_, t, (ht j).symm.trans e1, rfl⟩

theorem unresolvedSystem_ok {J : Type} {spin : J → ℚ} {table : List ℝ → J → Outcome Unresolved.Table}
    {energies : List ℝ} {nro : Option (ℝ → Outcome ℝ)} {naps : ℤ} {p : UnresolvedParameters J}
    {s : LegacySystem Unresolved.SpinGroup} (rows : J → List Unresolved.Resonance) (degrees : J → Data ℕ)
    (ht : ∀ j, table energies j = Unresolved.makeTable tables.linLin (rows j) (degrees j))
    (h : makeLegacyUnresolvedCompoundSystem spin table energies neutronMass incident target nro naps p
      = .ok s) :
    ∃ first rest pair radii groups, p.lValues = first :: rest ∧
      incidentPair neutronMass incident target first.awri p.spin = .ok pair ∧
      makeChannelRadii p.ap nro naps first.awri neutronMass = .ok radii ∧
      LegacySystem.make Unresolved.SpinGroup.channel groups = .ok s ∧
      List.Forall₂ (IsAverageGroup tables pair radii)
        (p.lValues.flatMap fun lv => lv.jValues.map fun j => ⟨lv.l, spin j, rows j, degrees j⟩) groups := by
  unfold makeLegacyUnresolvedCompoundSystem at h
  cases hl : p.lValues with
  | nil =>
    rw [hl] at h
    cases h
  | cons first rest =>
    rw [hl] at h
    dsimp only at h
    obtain ⟨pair, h1, h⟩ := bind_ok.mp h
    obtain ⟨radii, h2, h⟩ := bind_ok.mp h
    obtain ⟨gss, h3, h⟩ := bind_ok.mp h
    refine ⟨first, rest, pair, radii, gss.flatten, rfl, h1, h2, h, unresolvedGroups_ok rows degrees ht h3⟩

/-- The level spacing at an energy. -/
theorem call_spacing (hc : Spec.Conforms .linLin tables.linLin) {a : AverageGroup} {t : Unresolved.Table}
    (ht : Unresolved.makeTable tables.linLin a.rows a.degrees = .ok t) {r : Unresolved.Resonance}
    (hr : t.call E = .ok r) :
    Spec.Interpolates .linLin (a.rows.map (·.energy)) (a.rows.map (·.spacing)) E r.spacing := by
  unfold Unresolved.makeTable at ht
  obtain ⟨f1, h1, ht⟩ := bind_ok.mp ht
  obtain ⟨f2, h2, ht⟩ := bind_ok.mp ht
  obtain ⟨f3, h3, ht⟩ := bind_ok.mp ht
  obtain ⟨f4, h4, ht⟩ := bind_ok.mp ht
  obtain ⟨f5, h5, ht⟩ := bind_ok.mp ht
  obtain ⟨-, -, ht⟩ := bind_ok.mp ht
  cases ht
  unfold Unresolved.Table.call at hr
  obtain ⟨y1, k1, hr⟩ := bind_ok.mp hr
  obtain ⟨y2, k2, hr⟩ := bind_ok.mp hr
  obtain ⟨y3, k3, hr⟩ := bind_ok.mp hr
  obtain ⟨y4, k4, hr⟩ := bind_ok.mp hr
  obtain ⟨y5, k5, hr⟩ := bind_ok.mp hr
  cases hr
  exact hc _ _ _ h1 _ _ k1

/-- The parameters at an energy. -/
theorem call_average (hc : Spec.Conforms .linLin tables.linLin) {a : AverageGroup} {t : Unresolved.Table}
    (ht : Unresolved.makeTable tables.linLin a.rows a.degrees = .ok t) {r : Unresolved.Resonance}
    (hr : t.call E = .ok r) (h0 : r.spacing ≠ 0) : Spec.IsAverage E a r := by
  unfold Unresolved.makeTable at ht
  obtain ⟨f1, h1, ht⟩ := bind_ok.mp ht
  obtain ⟨f2, h2, ht⟩ := bind_ok.mp ht
  obtain ⟨f3, h3, ht⟩ := bind_ok.mp ht
  obtain ⟨f4, h4, ht⟩ := bind_ok.mp ht
  obtain ⟨f5, h5, ht⟩ := bind_ok.mp ht
  obtain ⟨-, -, ht⟩ := bind_ok.mp ht
  cases ht
  unfold Unresolved.Table.call at hr
  obtain ⟨y1, k1, hr⟩ := bind_ok.mp hr
  obtain ⟨y2, k2, hr⟩ := bind_ok.mp hr
  obtain ⟨y3, k3, hr⟩ := bind_ok.mp hr
  obtain ⟨y4, k4, hr⟩ := bind_ok.mp hr
  obtain ⟨y5, k5, hr⟩ := bind_ok.mp hr
  cases hr
  exact ⟨rfl, hc _ _ _ h1 _ _ k1, hc _ _ _ h2 _ _ k2, hc _ _ _ h3 _ _ k3, hc _ _ _ h4 _ _ k4,
    hc _ _ _ h5 _ _ k5, h0⟩

/-- What a group adds. -/
structure AddsAverage (K : Constants) (E a : ℝ) (φ : ℕ → ℝ) (I : ℚ) (k : ℝ) (incident target : Str)
    (g : AverageGroup) (f : LegacyID → ℝ) (r : Unresolved.Resonance) : Prop where
  average : Spec.IsAverage E g r
  elastic : f ⟨incident, target, .elastic⟩
    = 2 * Real.pi ^ 2 / k ^ 2 * g.elasticTerm I (k * a) E (φ g.l) r
  capture : f ⟨incident, target, .capture⟩ = 2 * Real.pi ^ 2 / k ^ 2 * g.captureTerm I (k * a) E r
  fission : f ⟨incident, target, .fission⟩ = 2 * Real.pi ^ 2 / k ^ 2 * g.fissionTerm I (k * a) E r

theorem sum_averages {a : ℝ} {φ : ℕ → ℝ} {I : ℚ} {k : ℝ} {gs : List AverageGroup}
    {fs : List (LegacyID → ℝ)}
    (h : List.Forall₂ (fun g f => ∃ r, AddsAverage K E a φ I k incident target g f r) gs fs) :
    ∃ rs, List.Forall₂ (Spec.IsAverage E) gs rs ∧
      (fs.map fun f => f ⟨incident, target, .elastic⟩).sum = 2 * Real.pi ^ 2 / k ^ 2
        * (List.zipWith (fun g r => g.elasticTerm I (k * a) E (φ g.l) r) gs rs).sum ∧
      (fs.map fun f => f ⟨incident, target, .capture⟩).sum = 2 * Real.pi ^ 2 / k ^ 2
        * (List.zipWith (fun g r => g.captureTerm I (k * a) E r) gs rs).sum ∧
      (fs.map fun f => f ⟨incident, target, .fission⟩).sum = 2 * Real.pi ^ 2 / k ^ 2
        * (List.zipWith (fun g r => g.fissionTerm I (k * a) E r) gs rs).sum := by
  induction h with
  | nil => exact ⟨[], .nil, by simp, by simp, by simp⟩
  | @cons g f gs fs h1 _ ih =>
    obtain ⟨r, hr⟩ := h1
    obtain ⟨rs, k1, k2, k3, k4⟩ := ih
    refine ⟨r :: rs, .cons hr.average k1, ?_, ?_, ?_⟩
    · rw [List.map_cons, List.sum_cons, List.zipWith_cons_cons, List.sum_cons, k2, hr.elastic, mul_add]
    · rw [List.map_cons, List.sum_cons, List.zipWith_cons_cons, List.sum_cons, k3, hr.capture, mul_add]
    · rw [List.map_cons, List.sum_cons, List.zipWith_cons_cons, List.sum_cons, k4, hr.fission, mul_add]

/-- What the groups leave alone and what they report. -/
theorem averages_report {gs gs' : List Unresolved.SpinGroup} {m m' : LegacyMap}
    (hg : ∀ g ∈ gs, ∀ kind, legacyID g.channel kind = ⟨incident, target, kind⟩)
    (h : LegacySystem.evaluateGroups (Unresolved.SpinGroup.evaluate K lib E) gs m = .ok (m', gs')) :
    (∀ id, (∀ kind, id ≠ ⟨incident, target, kind⟩) → m' id = m id) ∧
    ((m ⟨incident, target, .capture⟩).isSome ∨ gs ≠ [] →
      (m' ⟨incident, target, .capture⟩).isSome) := by
  induction gs generalizing m gs' with
  | nil =>
    simp only [LegacySystem.evaluateGroups, Except.ok.injEq, Prod.mk.injEq] at h
    obtain ⟨rfl, -⟩ := h
    simp
  | cons g gs ih =>
    obtain ⟨m1, g1, rest, h1, h2, rfl⟩ := LegacySystem.evaluateGroups_cons_ok.mp h
    obtain ⟨k1, k2⟩ := ih (fun g hg' => hg g (List.mem_cons_of_mem _ hg')) h2
    have hid := hg g List.mem_cons_self
    have key : (∀ id, (∀ kind, id ≠ ⟨incident, target, kind⟩) → m1 id = m id) ∧
        (m1 ⟨incident, target, .capture⟩).isSome := by
      unfold Unresolved.SpinGroup.evaluate at h1
      dsimp only at h1
      obtain ⟨P, -, h1⟩ := bind_ok.mp h1
      obtain ⟨φ, -, h1⟩ := bind_ok.mp h1
      obtain ⟨R, -, h1⟩ := bind_ok.mp h1
      obtain ⟨t, -, h1⟩ := bind_ok.mp h1
      split at h1
      · cases h1
      obtain ⟨r, -, h1⟩ := bind_ok.mp h1
      cases h1
      simp only [hid]
      split
      · refine ⟨fun id hne => ?_, ?_⟩
        · rw [LegacyMap.add_other _ _ (hne _), LegacyMap.add_other _ _ (hne _),
            LegacyMap.add_other _ _ (hne _)]
        · rw [LegacyMap.add_other _ _ (by simp), LegacyMap.add_self]
          rfl
      · refine ⟨fun id hne => ?_, ?_⟩
        · rw [LegacyMap.add_other _ _ (hne _), LegacyMap.add_other _ _ (hne _)]
        · rw [LegacyMap.add_self]
          rfl
    exact ⟨fun id hne => (k1 id hne).trans (key.1 id hne), fun _ => k2 (.inl key.2)⟩

theorem neutron_phaseShift_value {c : Channel} {v : ℝ} (ht : c.type = .neutron)
    (h : c.phaseShift K lib E = .ok v) : ∃ radius, c.radii.phaseShift E = .ok radius ∧
      calculatePhaseShift lib .neutron c.numbers.l (c.waveNumber K E * radius) 0 = .ok v := by
  unfold Channel.phaseShift at h
  rw [neutron_eta ht] at h
  obtain ⟨_, h0, h⟩ := bind_ok.mp h
  cases h0
  obtain ⟨radius, hr, h⟩ := bind_ok.mp h
  rw [ht] at h
  exact ⟨radius, hr, h⟩

/-- C67 for a compound system. -/
theorem unresolved_cross_sections {nro : Option (ℝ → Outcome ℝ)} {naps : ℤ} {A : ℝ}
    {d : Spec.AverageParameters} {pair : ParticlePair} {radii : ChannelRadii}
    {groups : List Unresolved.SpinGroup} {s s' : LegacySystem Unresolved.SpinGroup} {m : LegacyMap}
    (hc : Spec.Conforms .linLin tables.linLin) (hn : Spec.prescribedRadii nro.isSome naps ≠ none)
    (hpair : incidentPair neutronMass incident target A d.spin = .ok pair)
    (hradii : makeChannelRadii d.ap nro naps A neutronMass = .ok radii)
    (hs : LegacySystem.make Unresolved.SpinGroup.channel groups = .ok s)
    (hg : List.Forall₂ (IsAverageGroup tables pair radii) d.groups groups)
    (hm : s.evaluate K lib Unresolved.SpinGroup.channel (Unresolved.SpinGroup.evaluate K lib E) E
      (fun _ => none) = .ok (m, s')) :
    ∃ channel scattering a b φ lmax rs,
      Spec.IsRadii d.ap nro naps (A * neutronMass) channel scattering ∧ channel E = .ok a ∧
      scattering E = .ok b ∧ (∀ g ∈ d.groups, g.l ≤ lmax) ∧ (∃ g ∈ d.groups, g.l = lmax) ∧
      (∀ l ≤ lmax, Complex.exp (2 * Complex.I * φ l) = Spec.hardSpherePhase
        (neutronWaveNumber (waveConstant K.hbar neutronMass) A E * b) l) ∧
      List.Forall₂ (Spec.IsAverage E) d.groups rs ∧
      Spec.IsUnresolved (neutronWaveNumber (waveConstant K.hbar neutronMass) A E) a E φ lmax incident target
        d rs m := by
  obtain ⟨c1, c2, c3⟩ := Verif.BreitWigner.C35_contents hs
  obtain ⟨a1, a2⟩ := (Verif.BreitWigner.C35_accepted _ _).mp ⟨s, hs⟩
  obtain ⟨first, rest, hfirst⟩ := List.exists_cons_of_ne_nil a1
  obtain ⟨m1, φ, radius, e0, e1, e2, e3, e4, e5⟩ :=
    Unresolved.C35_unresolved (c1.trans hfirst) hm
  rw [c1] at e1
  obtain ⟨p1, p2, p3, p4⟩ := incidentPair_ok hpair
  have hi : pair.particle.spin = 1 / 2 := by rw [p4]
  have hI : pair.residual.spin = d.spin := by rw [p4]
  obtain ⟨r1, r2⟩ := radii_ok p2 hn hradii
  have hk : ∀ g ∈ groups, g.channel.waveNumber K E
      = neutronWaveNumber (waveConstant K.hbar neutronMass) A E := by
    intro g hgm
    obtain ⟨ag, -, parity, t, -, rfl⟩ := forall₂_mem_right hg hgm
    exact lChannel_waveNumber hpair radii ag.l E
  have hids : ∀ g ∈ groups, ∀ kind, legacyID g.channel kind = ⟨incident, target, kind⟩ := by
    intro g hgm kind
    obtain ⟨ag, -, parity, t, -, rfl⟩ := forall₂_mem_right hg hgm
    unfold legacyID
    simp only [plainChannel, makeChannel]
    rw [p4]
  have hrad : ∀ g ∈ groups, g.channel.radii = radii := by
    intro g hgm
    obtain ⟨ag, -, parity, t, -, rfl⟩ := forall₂_mem_right hg hgm
    rfl
  have hfm : first ∈ groups := by rw [hfirst]; exact List.mem_cons_self
  rw [hk first hfm] at e3 e5
  rw [hids first hfm] at e4 e5
  rw [hrad first hfm] at e2
  obtain ⟨a, ha⟩ : ∃ a, radii.penetrability E = .ok a := by
    rw [hfirst] at e1
    obtain ⟨_, _, _, h1, _, _⟩ := LegacySystem.evaluateGroups_cons_ok.mp e1
    obtain ⟨P, φ, R, t, r, -, -, hR, -⟩ := Unresolved.evaluate_ok h1
    rw [hrad first hfm] at hR
    exact ⟨R, hR⟩
  obtain ⟨-, fs, f1, f2⟩ := LegacySystem.evaluateGroups_sum
    (channel := Unresolved.SpinGroup.channel)
    (R := fun g f => ∀ ag, IsAverageGroup tables pair radii ag g → ag.l ≤ 4 ∧ ∃ r, AddsAverage K E a φ
      d.spin (neutronWaveNumber (waveConstant K.hbar neutronMass) A E) incident target ag f r)
    (fun g hgm m m' g' hm => by
      have hid := hids g hgm
      have hkg := hk g hgm
      obtain ⟨P, φ', R, t, r, h1, h2, h3, h4, h5, h6, h7, h8, h9, h10, h11⟩ := Unresolved.evaluate_ok hm
      refine ⟨by rw [h5], _, ?_, fun id => by rw [h11 id, add_assoc, add_assoc]⟩
      rintro ag ⟨parity, tb, b1, rfl⟩
      have hl : ag.l ≤ s.lmax := c2 _ hgm
      obtain ⟨q1, q2, q3, q4, q5, q6, q7⟩ := Unresolved.makeTable_ok b1
      obtain ⟨hl4, R', u1, u2⟩ := neutron_penetrability rfl h1
      obtain rfl := Except.ok.inj (h3.symm.trans u1)
      obtain rfl := Except.ok.inj (ha.symm.trans u1)
      obtain ⟨b, v1, v2⟩ := neutron_phaseShift_value rfl h2
      obtain rfl := Except.ok.inj (e2.symm.trans v1)
      rw [hkg] at u2 v2 h10
      obtain rfl := Except.ok.inj ((e3 ag.l hl).symm.trans v2)
      change P = (Spec.hardSphere _ ag.l).1 at u2
      simp only [q2] at h10
      have hw : (⟨t.elastic * Real.sqrt E * (ag.degrees.elastic * P
          / (neutronWaveNumber (waveConstant K.hbar neutronMass) A E * a)), t.capture, t.fission,
          t.competition⟩ : Data ℝ)
          = ag.widths (neutronWaveNumber (waveConstant K.hbar neutronMass) A E * a) E t := by
        unfold Spec.AverageGroup.widths
        rw [u2]
        congr 1
        ring
      rw [hw] at h10
      obtain ⟨-, -, hr⟩ := Unresolved.integrals_ok (by
        unfold Unresolved.Unsigned
        omega) h10
      have hwe : t.elastic * Real.sqrt E * (ag.degrees.elastic * P
          / (neutronWaveNumber (waveConstant K.hbar neutronMass) A E * a))
          = (ag.widths (neutronWaveNumber (waveConstant K.hbar neutronMass) A E * a) E t).elastic :=
        congrArg Data.elastic hw
      have hsf : (plainChannel .neutron pair pair ⟨ag.l, 1 / 2, ag.J, parity⟩ radii).spinFactor
          = Spec.neutronFactor d.spin ag.J := by
        change statisticalSpinFactor ag.J pair.particle.spin pair.residual.spin = _
        rw [hi, hI, neutron_factor]
      have hr : r = ag.integrals (ag.widths (neutronWaveNumber (waveConstant K.hbar neutronMass) A E * a)
        E t) := hr
      refine ⟨hl4, t, call_average hc b1 h4 h9, ?_, ?_, ?_⟩
      all_goals
        simp only [hid, hkg, hsf, q2, hwe, if_true, reduceCtorEq, if_false, LegacyID.mk.injEq, and_true,
          true_and, and_false, add_zero, zero_add, hr]
      · unfold Spec.AverageGroup.elasticTerm
        ring
      · unfold Spec.AverageGroup.captureTerm
        ring
      · unfold Spec.AverageGroup.fissionTerm
        ring) e1
  have hlmax : ∀ g ∈ d.groups, g.l ≤ s.lmax := by
    intro ag hag
    obtain ⟨g, hgm, parity, t, -, rfl⟩ := forall₂_mem_left hg hag
    exact c2 _ hgm
  have hmax : ∃ g ∈ d.groups, g.l = s.lmax := by
    obtain ⟨g, hgm, e⟩ := c3
    obtain ⟨ag, hag, parity, t, -, rfl⟩ := forall₂_mem_right hg hgm
    exact ⟨ag, hag, e⟩
  have hall : List.Forall₂ (fun ag f => ∃ r, AddsAverage K E a φ d.spin
      (neutronWaveNumber (waveConstant K.hbar neutronMass) A E) incident target ag f r) d.groups fs := by
    refine (forall₂_trans hg f1).imp ?_
    rintro ag f ⟨g, h1, h2⟩
    exact (h2 ag h1).2
  have h4 : s.lmax ≤ 4 := by
    obtain ⟨ag, hag, e⟩ := hmax
    obtain ⟨f, -, g, h1, h2⟩ := forall₂_mem_left (forall₂_trans hg f1) hag
    exact e ▸ (h2 ag h1).1
  obtain ⟨rs, s1, s2, s3, s4⟩ := sum_averages hall
  obtain ⟨o1, o2⟩ := averages_report hids e1
  have hsome : ∀ {o : Option ℝ} {v : ℝ}, o.isSome → o.getD 0 = v → o = some v := by
    intro o v h1 h2
    cases o with
    | none => cases h1
    | some x => exact congrArg some h2
  refine ⟨radii.penetrability, radii.phaseShift, a, radius, φ, s.lmax, rs, r1, ha, e2, hlmax, hmax,
    fun l hl => ?_, s1, ?_, ?_, ?_, ?_⟩
  · rw [hardSpherePhase_eq (hl.trans h4), exp_phase lib (hl.trans h4) _ _ _ (e3 l hl)]
  · rw [e5, f2, s2]
    simp only [Option.getD_none, zero_add]
    rw [add_comm]
  · rw [e4 _ (by simp)]
    refine hsome (o2 (.inr a1)) ?_
    rw [f2, s3]
    simp
  · rw [e4 _ (by simp), f2, s4]
    simp
  · intro id hid
    rw [e4 _ (hid _), o1 id hid]

variable {reactions : ReactionLibrary} {initialBreitWigner : Channel → Verif.BreitWigner.Cache}
  {initial : (g : SpinGroup) → MatrixCache g.channels.length} {elementaryCharge : ℝ} {range : Range}
  {R R' : Reconstructor} {m : ReactionMap}

/-- The system of an unresolved range. -/
theorem unresolved_groups {A : ℝ} {d : Spec.AverageParameters} {nro : Option (ℝ → Outcome ℝ)}
    (hR : fromENDF K lib tables reactions initialBreitWigner initial neutronMass elementaryCharge incident
      target range = .ok R)
    (hd : Spec.averageParameters range.lower range.upper range.parameters = some d)
    (hA : ∀ awri ∈ d.awri, awri = A)
    (h3 : makeChannelRadiusTable tables range.scatteringRadius = .ok nro) :
    ∃ s pair radii groups, R.system = .unresolved s ∧
      incidentPair neutronMass incident target A d.spin = .ok pair ∧
      makeChannelRadii d.ap nro range.naps A neutronMass = .ok radii ∧
      LegacySystem.make Unresolved.SpinGroup.channel groups = .ok s ∧
      List.Forall₂ (IsAverageGroup tables pair radii) d.groups groups := by
  obtain ⟨-, -, -, nro', h3', h4⟩ := C47_dispatch hR
  obtain rfl := Except.ok.inj (h3.symm.trans h3')
  generalize range.parameters = parameters at hd h4
  generalize R.system = system at h4
  unfold Spec.averageParameters at hd
  split at hd
  · obtain rfl := Option.some.inj hd
    cases system with
    | unresolved s =>
      obtain ⟨first, rest, pair, radii, groups, e1, e2, e3, e4, e5⟩ := unresolvedSystem_ok (tables := tables)
        (fun j : UnresolvedConstantJ => [⟨range.lower, j.spacing, j.neutronWidth, j.gammaWidth,
          j.fissionWidth, j.competitiveWidth⟩, ⟨range.upper, j.spacing, j.neutronWidth, j.gammaWidth,
          j.fissionWidth, j.competitiveWidth⟩]) UnresolvedConstantJ.degrees (fun j => rfl) h4
      have hf : first.awri = A := hA _ (by rw [e1]; exact List.mem_cons_self)
      rw [hf] at e2 e3
      exact ⟨s, pair, radii, groups, rfl, e2, e3, e4, e5⟩
    | _ => exact h4.elim
  · obtain rfl := Option.some.inj hd
    rename_i p
    cases system with
    | unresolved s =>
      obtain ⟨first, rest, pair, radii, groups, e1, e2, e3, e4, e5⟩ := unresolvedSystem_ok (tables := tables)
        (fun j : UnresolvedFissionJ => (p.energies.zip j.fissionWidths).map fun row =>
          ⟨row.1, j.spacing, j.neutronWidth, j.gammaWidth, row.2, j.competitiveWidth⟩)
        UnresolvedFissionJ.degrees (fun j => by
          unfold fissionTable
          rw [List.map_zip_eq_zipWith]
          rfl) h4
      have hf : first.awri = A := hA _ (by rw [e1]; exact List.mem_cons_self)
      rw [hf] at e2 e3
      exact ⟨s, pair, radii, groups, rfl, e2, e3, e4, e5⟩
    | _ => exact h4.elim
  · obtain rfl := Option.some.inj hd
    cases system with
    | unresolved s =>
      obtain ⟨first, rest, pair, radii, groups, e1, e2, e3, e4, e5⟩ := unresolvedSystem_ok (tables := tables)
        UnresolvedDependentJ.rows UnresolvedDependentJ.degrees (fun j => rfl) h4
      have hf : first.awri = A := hA _ (by rw [e1]; exact List.mem_cons_self)
      rw [hf] at e2 e3
      exact ⟨s, pair, radii, groups, rfl, e2, e3, e4, e5⟩
    | _ => exact h4.elim
  · cases hd

/-- C67: the cross sections of an unresolved range are those of the ENDF manual: the average parameters are
interpolated linearly at the energy, and averaged over the fluctuating widths. -/
theorem C67_cross_sections {A : ℝ} {d : Spec.AverageParameters}
    (hR : fromENDF K lib tables reactions initialBreitWigner initial neutronMass elementaryCharge incident
      target range = .ok R)
    (hd : Spec.averageParameters range.lower range.upper range.parameters = some d)
    (hA : ∀ awri ∈ d.awri, awri = A) (hc : Spec.Conforms .linLin tables.linLin)
    (hn : Spec.prescribedRadii range.scatteringRadius.isSome range.naps ≠ none)
    (hE : range.lower ≤ E ∧ E ≤ range.upper) (hm : R.call K lib E = .ok (m, R')) :
    ∃ nro channel scattering a b φ lmax rs,
      Option.Rel (Spec.IsRadiusTable tables) range.scatteringRadius nro ∧
      Spec.IsRadii d.ap nro range.naps (A * neutronMass) channel scattering ∧ channel E = .ok a ∧
      scattering E = .ok b ∧ (∀ g ∈ d.groups, g.l ≤ lmax) ∧ (∃ g ∈ d.groups, g.l = lmax) ∧
      (∀ l ≤ lmax, Complex.exp (2 * Complex.I * φ l) = Spec.hardSpherePhase
        (neutronWaveNumber (waveConstant K.hbar neutronMass) A E * b) l) ∧
      List.Forall₂ (Spec.IsAverage E) d.groups rs ∧
      Spec.IsUnresolved (neutronWaveNumber (waveConstant K.hbar neutronMass) A E) a E φ lmax incident target
        d rs (fun id => m (.inr id)) ∧ ∀ id, m (.inl id) = none := by
  obtain ⟨h1, h2, -, nro, h3, h4⟩ := C47_dispatch hR
  have hrel : Option.Rel (Spec.IsRadiusTable tables) range.scatteringRadius nro := by
    rcases radiusTable_ok h3 with ⟨e1, e2⟩ | ⟨r, f, e1, e2, e3⟩
    · rw [e1, e2]
      exact .none
    · rw [e1, e2]
      exact .some e3
  have hn' : Spec.prescribedRadii nro.isSome range.naps ≠ none := by
    rcases radiusTable_ok h3 with ⟨e1, e2⟩ | ⟨r, f, e1, e2, -⟩
    · rw [e1] at hn
      rwa [e2]
    · rw [e1] at hn
      rwa [e2]
  obtain ⟨s, pair, radii, groups, hs, k1, k2, k3, k4⟩ := unresolved_groups hR hd hA h3
  unfold Reconstructor.call at hm
  rw [h1, h2, if_pos ⟨hE.1, hE.2⟩] at hm
  obtain ⟨⟨m1, system⟩, hv, hm⟩ := bind_ok.mp hm
  cases hm
  unfold SystemVariant.evaluate at hv
  rw [hs] at hv
  dsimp only at hv
  obtain ⟨⟨m, s'⟩, hv2, hm⟩ := bind_ok.mp hv
  cases hm
  obtain ⟨channel, scattering, a, b, φ, lmax, rs, r1, r2, r3, r4, r5, r6, r7, r8⟩ :=
    unresolved_cross_sections hc hn' k1 k2 k3 k4 hv2
  exact ⟨nro, channel, scattering, a, b, φ, lmax, rs, hrel, r1, r2, r3, r4, r5, r6, r7, r8, fun _ => rfl⟩

end Verif.Endf
