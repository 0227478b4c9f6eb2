import Verif.Lemmas.BreitWignerRange

/-!
# Property C65: the cross sections of a Breit-Wigner range
-/

namespace Verif.Endf

open Spec (Wave Assigned neutronWaveNumber waveConstant)

variable {K : Constants} {lib : CoulombLibrary} {tables : InterpolationLibrary}
  {initialBreitWigner : Channel → Verif.BreitWigner.Cache}
  {neutronMass E : ℝ} {incident target : Str}

/-- The interpolation table for the radii. -/
theorem radiusTable_ok {radius : Option ScatteringRadius} {nro : Option (ℝ → Outcome ℝ)}
    (h : makeChannelRadiusTable tables radius = .ok nro) :
    (radius = none ∧ nro = none) ∨
      ∃ r f, radius = some r ∧ nro = some f ∧ Spec.IsRadiusTable tables r f := by
  unfold makeChannelRadiusTable at h
  cases radius with
  | none =>
    cases h
    exact .inl ⟨rfl, rfl⟩
  | some r =>
    dsimp only at h
    obtain ⟨fs, h1, h⟩ := bind_ok.mp h
    obtain ⟨f, h2, h⟩ := bind_ok.mp h
    cases h
    refine .inr ⟨r, f, rfl, rfl, fs, (mapM_ok.mp h1).imp fun region g hg => ?_, h2⟩
    unfold makeRegion at hg
    split at hg
    · rename_i hi
      exact ⟨.histogram, by rw [hi]; rfl, hg⟩
    split at hg
    · rename_i hi
      exact ⟨.linLin, by rw [hi]; rfl, hg⟩
    split at hg
    · rename_i hi
      exact ⟨.linLog, by rw [hi]; rfl, hg⟩
    split at hg
    · rename_i hi
      exact ⟨.logLin, by rw [hi]; rfl, hg⟩
    split at hg
    · rename_i hi
      exact ⟨.logLog, by rw [hi]; rfl, hg⟩
    · cases hg

/-- The parts of a Breit-Wigner system. -/
theorem system_ok {nro : Option (ℝ → Outcome ℝ)} {naps : ℤ} {p : BreitWigner}
    {s : LegacySystem Verif.BreitWigner.SpinGroup}
    (h : makeLegacyBreitWignerCompoundSystem K lib initialBreitWigner neutronMass incident target nro naps p
      = .ok s) :
    ∃ gss : List (List Verif.BreitWigner.SpinGroup),
      LegacySystem.make Verif.BreitWigner.SpinGroup.channel gss.flatten = .ok s ∧
      List.Forall₂ (fun lv gs => ∃ pair radii,
        incidentPair neutronMass incident target lv.awri p.spin = .ok pair ∧
        makeChannelRadii p.ap nro naps lv.awri neutronMass = .ok radii ∧
        List.Forall₂ (IsGroup K lib pair radii lv)
          (sortUnique (lv.resonances.map BreitWignerResonance.spin)) gs) p.lValues gss := by
  unfold makeLegacyBreitWignerCompoundSystem at h
  split at h
  · cases h
  obtain ⟨-, -, h⟩ := bind_ok.mp h
  dsimp only at h
  obtain ⟨⟨groups, rest⟩, h1, h⟩ := bind_ok.mp h
  obtain ⟨gss, rfl, h2⟩ := overLValues_ok h1
  refine ⟨gss, h, h2.imp ?_⟩
  rintro lv gs ⟨a, a', h3⟩
  unfold makeLegacyBreitWignerSpinGroups at h3
  obtain ⟨pair, e1, h3⟩ := bind_ok.mp h3
  obtain ⟨radii, e2, h3⟩ := bind_ok.mp h3
  exact ⟨pair, radii, e1, e2, breitWignerGroups_ok h3⟩

/-- The radii of the l values. -/
theorem radii_ok {ap awri : ℝ} {nro : Option (ℝ → Outcome ℝ)} {naps : ℤ} {radii : ChannelRadii}
    (hm : 0 ≤ awri * neutronMass) (hn : Spec.prescribedRadii nro.isSome naps ≠ none)
    (h : makeChannelRadii ap nro naps awri neutronMass = .ok radii) :
    Spec.IsRadii ap nro naps (awri * neutronMass) radii.penetrability radii.phaseShift ∧
      radii.shiftFactor = radii.penetrability := by
  constructor
  · have hn' : nro.isSome ∨ naps = 0 ∨ naps = 1 := by
      by_contra hc
      simp only [not_or] at hc
      obtain ⟨h1, h2, h3⟩ := hc
      apply hn
      cases nro with
      | some f => exact absurd rfl h1
      | none =>
        unfold Spec.prescribedRadii
        split <;> simp_all
    have := C31_partial ap nro naps awri neutronMass hm hn'
    cases hp : Spec.prescribedRadii nro.isSome naps with
    | none => exact absurd hp hn
    | some q =>
      obtain ⟨first, second⟩ := q
      rw [hp] at this
      obtain ⟨radii', h1, h2⟩ := this
      obtain rfl := Except.ok.inj (h1.symm.trans h)
      exact ⟨first, second, hp, fun e => ⟨(h2 e).1, (h2 e).2.2⟩⟩
  · unfold makeChannelRadii at h
    cases nro with
    | none =>
      simp only at h
      split at h
      · obtain ⟨r, -, h⟩ := bind_ok.mp h
        cases h
        rfl
      · cases h
        rfl
    | some f =>
      simp only at h
      split at h
      · obtain ⟨r, -, h⟩ := bind_ok.mp h
        cases h
        rfl
      split at h
      · cases h
        rfl
      split at h
      · cases h
        rfl
      · cases h

/-- The cross sections of all groups. -/
theorem groups_ok {nro : Option (ℝ → Outcome ℝ)} {naps : ℤ} {p : BreitWigner} {multi : Bool}
    {lvs : List BreitWignerLValue} {gss : List (List Verif.BreitWigner.SpinGroup)}
    {fss : List (List (LegacyID → ℝ))} (hn : Spec.prescribedRadii nro.isSome naps ≠ none)
    (h : List.Forall₂ (fun lv gs => ∃ pair radii,
        incidentPair neutronMass incident target lv.awri p.spin = .ok pair ∧
        makeChannelRadii p.ap nro naps lv.awri neutronMass = .ok radii ∧
        List.Forall₂ (IsGroup K lib pair radii lv)
          (sortUnique (lv.resonances.map BreitWignerResonance.spin)) gs) lvs gss)
    (hJ : (gss.flatten.map fun g => (g.channel.numbers.l, g.channel.numbers.J)).Nodup)
    (hf : List.Forall₂ (List.Forall₂ (Adds K lib multi E)) gss fss) :
    ∃ ws : List (Wave × List Assigned),
      List.Forall₂ (fun lv w => if lv.resonances = [] then w.2 = [] else lv.l ≤ 4 ∧
        ∃ channel scattering, Spec.IsRadii p.ap nro naps (lv.awri * neutronMass) channel scattering ∧
        Spec.IsPartialWave (neutronWaveNumber (waveConstant K.hbar neutronMass) lv.awri) channel scattering
          E lv w.1 w.2) lvs ws ∧
      (fss.flatten.map fun f => f ⟨incident, target, .elastic⟩).sum = (List.zipWith (fun lv w =>
        Real.pi / neutronWaveNumber (waveConstant K.hbar neutronMass) lv.awri E ^ 2
          * Spec.resonantElastic multi p.spin E w.1 w.2) lvs ws).sum ∧
      (fss.flatten.map fun f => f ⟨incident, target, .capture⟩).sum = (List.zipWith (fun lv w =>
        Real.pi / neutronWaveNumber (waveConstant K.hbar neutronMass) lv.awri E ^ 2
          * Spec.captureSum p.spin E w.1 w.2) lvs ws).sum ∧
      (fss.flatten.map fun f => f ⟨incident, target, .fission⟩).sum = (List.zipWith (fun lv w =>
        Real.pi / neutronWaveNumber (waveConstant K.hbar neutronMass) lv.awri E ^ 2
          * Spec.fissionSum p.spin E w.1 w.2) lvs ws).sum := by
  induction h generalizing fss with
  | nil =>
    cases hf
    exact ⟨[], .nil, by simp, by simp, by simp⟩
  | @cons lv gs lvs gss h1 h2 ih =>
    cases hf with
    | @cons _ fs _ fss f1 f2 =>
      obtain ⟨pair, radii, e1, e2, hg⟩ := h1
      rw [List.flatten_cons, List.map_append, List.nodup_append] at hJ
      obtain ⟨ws, k1, k2, k3, k4⟩ := ih hJ.2.1 f2
      have hJ1 : (gs.map fun g => g.channel.numbers.J).Nodup := by
        have hl : ∀ g ∈ gs, g.channel.numbers.l = lv.l := by
          intro g hgm
          obtain ⟨J, -, hJ⟩ := forall₂_mem_right hg hgm
          exact (group_channel hJ).2.2.2.2.2.1
        have e : (gs.map fun g => (g.channel.numbers.l, g.channel.numbers.J))
            = (gs.map fun g => g.channel.numbers.J).map fun J => (lv.l, J) := by
          rw [List.map_map]
          refine List.map_congr_left fun g hgm => ?_
          simp only [Function.comp, hl g hgm]
        have := hJ.1
        rw [e] at this
        exact List.Nodup.of_map _ this
      obtain ⟨p1, p2, p3, p4⟩ := incidentPair_ok e1
      have hi : pair.particle.spin = 1 / 2 := by rw [p4]
      have hI : pair.residual.spin = p.spin := by rw [p4]
      have hid : pair.particle.id = incident ∧ pair.residual.id = target := by rw [p4]; exact ⟨rfl, rfl⟩
      obtain ⟨s1, s2, s3, -⟩ := level_sum hg hJ1 f1 hi hI
      rw [lChannel_waveNumber e1, hid.1, hid.2] at s1 s2 s3
      obtain ⟨r1, r2⟩ := radii_ok p2 hn e2
      refine ⟨(lWave K lib (lChannel pair radii lv.l) lv.qx E,
        lv.resonances.map (lAssigned K lib (lChannel pair radii lv.l) lv.qx lv.lrx)) :: ws,
        .cons ?_ k1, ?_, ?_, ?_⟩
      · split
        · rename_i hne
          simp [hne]
        · rename_i hne
          obtain ⟨w1, w2⟩ := level_wave hg f1 r2 hne
          refine ⟨w1, _, _, r1, ?_⟩
          have e3 : (lChannel pair radii lv.l).waveNumber K
              = neutronWaveNumber (waveConstant K.hbar neutronMass) lv.awri :=
            funext fun E => lChannel_waveNumber e1 radii lv.l E
          rw [e3] at w2
          exact w2
      · rw [List.flatten_cons, List.map_append, List.sum_append, k2, s1]
        rfl
      · rw [List.flatten_cons, List.map_append, List.sum_append, k3, s2]
        rfl
      · rw [List.flatten_cons, List.map_append, List.sum_append, k4, s3]
        rfl

/-- What the groups leave alone and what they report. -/
theorem groups_report {multi : Bool} {gs gs' : List Verif.BreitWigner.SpinGroup} {m m' : LegacyMap}
    (hg : ∀ g ∈ gs, ∀ kind, legacyID g.channel kind = ⟨incident, target, kind⟩)
    (h : LegacySystem.evaluateGroups (Verif.BreitWigner.evaluate K lib E (formalism multi)) gs m
      = .ok (m', gs')) :
    (∀ id, (∀ kind, id ≠ ⟨incident, target, kind⟩) → m' id = m id) ∧
    ((m ⟨incident, target, .capture⟩).isSome ∨ gs ≠ [] →
      (m' ⟨incident, target, .capture⟩).isSome) := by
  induction gs generalizing m gs' with
  | nil =>
    simp only [LegacySystem.evaluateGroups, Except.ok.injEq, Prod.mk.injEq] at h
    obtain ⟨rfl, -⟩ := h
    simp
  | cons g gs ih =>
    obtain ⟨m1, g1, rest, h1, h2, rfl⟩ := LegacySystem.evaluateGroups_cons_ok.mp h
    obtain ⟨k1, k2⟩ := ih (fun g hg' => hg g (List.mem_cons_of_mem _ hg')) h2
    have hid := hg g List.mem_cons_self
    have key : (∀ id, (∀ kind, id ≠ ⟨incident, target, kind⟩) → m1 id = m id) ∧
        (m1 ⟨incident, target, .capture⟩).isSome := by
      have base : ∀ c : Data ℝ,
          (∀ id, (∀ kind, id ≠ ⟨incident, target, kind⟩) → Verif.BreitWigner.slbwMap K g E c m id = m id) ∧
          (Verif.BreitWigner.slbwMap K g E c m ⟨incident, target, .capture⟩).isSome := by
        intro c
        unfold Verif.BreitWigner.slbwMap
        simp only [hid]
        split
        · refine ⟨fun id hne => ?_, ?_⟩
          · rw [LegacyMap.add_other _ _ (hne _), LegacyMap.add_other _ _ (hne _),
              LegacyMap.add_other _ _ (hne _)]
          · rw [LegacyMap.add_other _ _ (by simp), LegacyMap.add_self]
            rfl
        · refine ⟨fun id hne => ?_, ?_⟩
          · rw [LegacyMap.add_other _ _ (hne _), LegacyMap.add_other _ _ (hne _)]
          · rw [LegacyMap.add_self]
            rfl
      cases multi with
      | false =>
        obtain ⟨p, q, s, φ, -, rfl, -⟩ := Verif.BreitWigner.evaluateSLBW_ok h1
        exact base _
      | true =>
        obtain ⟨p, q, s, φ, -, rfl, -⟩ := Verif.BreitWigner.evaluateMLBW_ok h1
        obtain ⟨b1, b2⟩ := base (Verif.BreitWigner.components g E p q s φ)
        refine ⟨fun id hne => ?_, ?_⟩
        · rw [hid, LegacyMap.add_other _ _ (hne _)]
          exact b1 id hne
        · rw [hid, LegacyMap.add_other _ _ (by simp)]
          exact b2
    exact ⟨fun id hne => (k1 id hne).trans (key.1 id hne), fun _ => k2 (.inl key.2)⟩

/-- The first l value with resonances. -/
theorem first_group {P : BreitWignerLValue → List Verif.BreitWigner.SpinGroup → Prop}
    {lvs : List BreitWignerLValue} {gss : List (List Verif.BreitWigner.SpinGroup)}
    {g : Verif.BreitWigner.SpinGroup} {gs : List Verif.BreitWigner.SpinGroup}
    (h : List.Forall₂ P lvs gss) (hP : ∀ lv gs, P lv gs → (gs = [] ↔ lv.resonances = []))
    (hg : gss.flatten = g :: gs) :
    ∃ before lv after gs', lvs = before ++ lv :: after ∧ (∀ x ∈ before, x.resonances = []) ∧
      lv.resonances ≠ [] ∧ P lv gs' ∧ g ∈ gs' := by
  induction h with
  | nil => cases hg
  | @cons lv gs' lvs gss h1 h2 ih =>
    cases gs' with
    | nil =>
      obtain ⟨before, lv', after, gs', rfl, k2, k3⟩ := ih hg
      refine ⟨lv :: before, lv', after, gs', rfl, ?_, k3⟩
      intro x hx
      rcases List.mem_cons.mp hx with rfl | hx
      · exact (hP _ _ h1).mp rfl
      · exact k2 x hx
    | cons g' gs' =>
      rw [List.flatten_cons, List.cons_append] at hg
      obtain ⟨rfl, -⟩ := List.cons.inj hg
      refine ⟨[], lv, lvs, _, rfl, by simp, ?_, h1, List.mem_cons_self⟩
      intro h0
      cases (hP _ _ h1).mpr h0

/-- C65 for a compound system. -/
theorem system_cross_sections {nro : Option (ℝ → Outcome ℝ)} {naps : ℤ} {p : BreitWigner} {multi : Bool}
    {s s' : LegacySystem Verif.BreitWigner.SpinGroup} {m : LegacyMap}
    (hn : Spec.prescribedRadii nro.isSome naps ≠ none)
    (h : makeLegacyBreitWignerCompoundSystem K lib initialBreitWigner neutronMass incident target nro naps p
      = .ok s)
    (hm : s.evaluate K lib Verif.BreitWigner.SpinGroup.channel
      (Verif.BreitWigner.evaluate K lib E (formalism multi)) E (fun _ => none) = .ok (m, s')) :
    ∃ ws, Spec.IsBreitWigner K neutronMass E incident target nro naps multi p ws m := by
  obtain ⟨gss, h1, h2⟩ := system_ok h
  obtain ⟨c1, c2, c3⟩ := Verif.BreitWigner.C35_contents h1
  obtain ⟨a1, a2⟩ := (Verif.BreitWigner.C35_accepted _ _).mp ⟨s, h1⟩
  obtain ⟨first, rest, hfirst⟩ := List.exists_cons_of_ne_nil a1
  obtain ⟨m1, groups', φ, radius, e1, e2, e3, e4, e5⟩ :=
    Verif.BreitWigner.C35_potential (c1.trans hfirst) hm
  rw [c1] at e1
  obtain ⟨-, fs, f1, f2⟩ := LegacySystem.evaluateGroups_sum (channel := Verif.BreitWigner.SpinGroup.channel)
    (R := Adds K lib multi E) (fun g _ m m' g' hm => by
      obtain ⟨p, q, s, φ, hV, rfl, h⟩ := Verif.BreitWigner.evaluate_values hm
      exact ⟨rfl, _, ⟨p, q, s, φ, hV, rfl⟩, fun id => by rw [h id, add_assoc]; rfl⟩) e1
  obtain ⟨fss, rfl, f3⟩ := forall₂_flatten_left f1
  obtain ⟨ws, w1, w2, w3, w4⟩ := groups_ok hn h2 a2 f3
  have hgroup : ∀ g ∈ gss.flatten, ∃ lv ∈ p.lValues, ∃ pair radii J,
      incidentPair neutronMass incident target lv.awri p.spin = .ok pair ∧
      makeChannelRadii p.ap nro naps lv.awri neutronMass = .ok radii ∧
      lv.resonances ≠ [] ∧ IsGroup K lib pair radii lv J g := by
    intro g hg
    obtain ⟨gs, hgs, hg⟩ := List.mem_flatten.mp hg
    obtain ⟨lv, hlv, pair, radii, k1, k2, k3⟩ := forall₂_mem_right h2 hgs
    obtain ⟨J, hJ, k4⟩ := forall₂_mem_right k3 hg
    refine ⟨lv, hlv, pair, radii, J, k1, k2, ?_, k4⟩
    intro h0
    rw [mem_sortUnique, h0] at hJ
    cases hJ
  have hids : ∀ g ∈ gss.flatten, ∀ kind, legacyID g.channel kind = ⟨incident, target, kind⟩ := by
    intro g hg kind
    obtain ⟨lv, -, pair, radii, J, k1, -, -, k4⟩ := hgroup g hg
    obtain ⟨-, -, -, -, -, -, -, -, k9⟩ := group_channel k4
    obtain ⟨-, -, -, k5⟩ := incidentPair_ok k1
    unfold legacyID
    rw [k9, k5]
  obtain ⟨o1, o2⟩ := groups_report hids e1
  have hfm : first ∈ gss.flatten := by rw [hfirst]; exact List.mem_cons_self
  rw [hids first hfm] at e4 e5
  have hsome : ∀ {o : Option ℝ} {v : ℝ}, o.isSome → o.getD 0 = v → o = some v := by
    intro o v h1 h2
    cases o with
    | none => cases h1
    | some x => exact congrArg some h2
  refine ⟨ws, w1, ?_, ?_, ?_, ?_⟩
  · rw [e4 _ (by simp)]
    refine hsome (o2 (.inr a1)) ?_
    rw [f2, w3]
    simp
  · rw [e4 _ (by simp), f2, w4]
    simp
  · obtain ⟨before, lv, after, gs', k1, k2, k3, ⟨pair, radii, k4, k5, k6⟩, k7⟩ := first_group h2 (by
      rintro lv gs ⟨pair, radii, -, -, k⟩
      constructor
      · rintro rfl
        have := k.length_eq
        by_contra h0
        obtain ⟨r, hr⟩ := List.exists_mem_of_ne_nil _ h0
        have hr' := mem_sortUnique.mpr (List.mem_map_of_mem (f := BreitWignerResonance.spin) hr)
        rw [List.eq_nil_of_length_eq_zero this] at hr'
        cases hr'
      · intro h0
        rw [h0] at k
        have e : sortUnique (([] : List BreitWignerResonance).map BreitWignerResonance.spin) = [] := by
          refine List.eq_nil_iff_forall_not_mem.mpr fun x hx => ?_
          rw [mem_sortUnique] at hx
          cases hx
        rw [e] at k
        cases k
        rfl) hfirst
    obtain ⟨J, -, k8⟩ := forall₂_mem_right k6 k7
    obtain ⟨-, p2, -, -⟩ := incidentPair_ok k4
    obtain ⟨r1, -⟩ := radii_ok p2 hn k5
    obtain ⟨-, -, -, v4, -, -, -, v8, -⟩ := group_channel k8
    have hw : first.channel.waveNumber K E
        = neutronWaveNumber (waveConstant K.hbar neutronMass) lv.awri E := by
      rw [v4]
      exact lChannel_waveNumber k4 radii lv.l E
    rw [hw] at e3 e5
    rw [v8] at e2
    have hl : s.lmax ≤ 4 := by
      obtain ⟨g, hg, hl⟩ := c3
      obtain ⟨lv, hlv, pair, radii, J, -, -, k3, k4⟩ := hgroup g hg
      obtain ⟨w, -, hw⟩ := forall₂_mem_left w1 hlv
      rw [if_neg k3] at hw
      rw [← hl, (group_channel k4).2.2.2.2.2.1]
      exact hw.1
    refine ⟨before, lv, after, _, _, radius, s.lmax, φ, k1, k2, k3, r1, e2, ?_, ?_, ?_, ?_, ?_⟩
    · intro x hx hne
      obtain ⟨gs, hgs, pair, radii, -, -, k⟩ := forall₂_mem_left h2 hx
      obtain ⟨r, hr⟩ := List.exists_mem_of_ne_nil _ hne
      obtain ⟨g, hg, k'⟩ := forall₂_mem_left k
        (mem_sortUnique.mpr (List.mem_map_of_mem (f := BreitWignerResonance.spin) hr))
      rw [← (group_channel k').2.2.2.2.2.1]
      exact c2 g (List.mem_flatten.mpr ⟨gs, hgs, hg⟩)
    · obtain ⟨g, hg, hl⟩ := c3
      obtain ⟨lv, hlv, pair, radii, J, -, -, k3, k4⟩ := hgroup g hg
      exact ⟨lv, hlv, k3, by rw [← hl, (group_channel k4).2.2.2.2.2.1]⟩
    · intro l hl'
      rw [exp_phase lib (hl'.trans hl) _ _ _ (e3 l hl'), hardSpherePhase_eq (hl'.trans hl)]
    · rw [← hw]
      obtain ⟨f, -, q1, q2, q3, q4, q5, -⟩ := forall₂_mem_left f1 hfm
      exact q5.waveNumber
    · rw [e5, f2, w2]
      simp [add_comm]
  · intro id hne
    rw [e4 id (hne _), o1 id hne]

variable {reactions : ReactionLibrary} {initial : (g : SpinGroup) → MatrixCache g.channels.length}
  {elementaryCharge : ℝ} {range : Range} {R R' : Reconstructor} {m : ReactionMap} {p : BreitWigner} {multi : Bool}

/-- C65: the cross sections that a reconstructor gives for a single-level or multi-level Breit-Wigner range
of an evaluation are those of the formula for all its resonances, apart from the potential scattering,
which is that of the first l value with resonances. -/
theorem C65_cross_sections
    (hR : fromENDF K lib tables reactions initialBreitWigner initial neutronMass elementaryCharge incident
      target range = .ok R)
    (hp : range.parameters = if multi then .multiLevel p else .singleLevel p)
    (hn : Spec.prescribedRadii range.scatteringRadius.isSome range.naps ≠ none)
    (hE : range.lower ≤ E ∧ E ≤ range.upper) (hm : R.call K lib E = .ok (m, R')) :
    ∃ nro ws, Option.Rel (Spec.IsRadiusTable tables) range.scatteringRadius nro ∧
      Spec.IsBreitWigner K neutronMass E incident target nro range.naps multi p ws (fun id => m (.inr id)) ∧
      ∀ id, m (.inl id) = none := by
  obtain ⟨h1, h2, -, nro, h3, h4⟩ := C47_dispatch hR
  have hrel : Option.Rel (Spec.IsRadiusTable tables) range.scatteringRadius nro := by
    rcases radiusTable_ok h3 with ⟨e1, e2⟩ | ⟨r, f, e1, e2, e3⟩
    · rw [e1, e2]
      exact .none
    · rw [e1, e2]
      exact .some e3
  have hn' : Spec.prescribedRadii nro.isSome range.naps ≠ none := by
    rcases radiusTable_ok h3 with ⟨e1, e2⟩ | ⟨r, f, e1, e2, -⟩
    · rw [e1] at hn
      rwa [e2]
    · rw [e1] at hn
      rwa [e2]
  unfold Reconstructor.call at hm
  rw [h1, h2, if_pos ⟨hE.1, hE.2⟩] at hm
  obtain ⟨⟨m1, system⟩, hv, hm⟩ := bind_ok.mp hm
  cases hm
  rw [hp] at h4
  unfold SystemVariant.evaluate at hv
  cases multi with
  | false =>
    cases hs : R.system with
    | singleLevel s =>
      rw [hs] at h4 hv
      dsimp only at hv
      obtain ⟨⟨m, s'⟩, hv2, hm⟩ := bind_ok.mp hv
      cases hm
      obtain ⟨ws, hw⟩ := system_cross_sections (multi := false) hn' h4 hv2
      exact ⟨nro, ws, hrel, hw, fun id => rfl⟩
    | multiLevel s => rw [hs] at h4; exact h4.elim
    | shiftFactor s => rw [hs] at h4; exact h4.elim
    | constant s => rw [hs] at h4; exact h4.elim
    | unresolved s => rw [hs] at h4; exact h4.elim
  | true =>
    cases hs : R.system with
    | multiLevel s =>
      rw [hs] at h4 hv
      dsimp only at hv
      obtain ⟨⟨m, s'⟩, hv2, hm⟩ := bind_ok.mp hv
      cases hm
      obtain ⟨ws, hw⟩ := system_cross_sections (multi := true) hn' h4 hv2
      exact ⟨nro, ws, hrel, hw, fun id => rfl⟩
    | singleLevel s => rw [hs] at h4; exact h4.elim
    | shiftFactor s => rw [hs] at h4; exact h4.elim
    | constant s => rw [hs] at h4; exact h4.elim
    | unresolved s => rw [hs] at h4; exact h4.elim

theorem isRadius_unique {ap mass e : ℝ} {table : Option (ℝ → Outcome ℝ)} {a b : Outcome ℝ}
    {source : Spec.RadiusSource} (ha : Spec.IsRadius ap table mass e a source)
    (hb : Spec.IsRadius ap table mass e b source) : a = b := by
  cases source with
  | mass =>
    obtain ⟨x, x0, x1, rfl⟩ := ha
    obtain ⟨y, y0, y1, rfl⟩ := hb
    rw [(pow_left_inj₀ x0 y0 (by norm_num)).mp (x1.trans y1.symm)]
  | constant => exact ha.trans hb.symm
  | table =>
    obtain ⟨f, h1, rfl⟩ := ha
    obtain ⟨g, h2, rfl⟩ := hb
    rw [Option.some.inj (h1.symm.trans h2)]

theorem isRadii_unique {ap mass e : ℝ} {table : Option (ℝ → Outcome ℝ)} {naps : ℤ}
    {c1 c2 s1 s2 : ℝ → Outcome ℝ} (h1 : Spec.IsRadii ap table naps mass c1 s1)
    (h2 : Spec.IsRadii ap table naps mass c2 s2) : c1 e = c2 e ∧ s1 e = s2 e := by
  obtain ⟨a, b, e1, k1⟩ := h1
  obtain ⟨a', b', e2, k2⟩ := h2
  rw [e1] at e2
  cases e2
  exact ⟨isRadius_unique (k1 e).1 (k2 e).1, isRadius_unique (k1 e).2 (k2 e).2⟩

theorem sin_sq_eq_of_exp {a b : ℝ}
    (h : Complex.exp (2 * Complex.I * a) = Complex.exp (2 * Complex.I * b)) :
    Real.sin a ^ 2 = Real.sin b ^ 2 := by
  have key : ∀ x : ℝ, Real.sin x ^ 2 = (1 - (Complex.exp (2 * Complex.I * x)).re) / 2 := by
    intro x
    rw [show (2 * Complex.I * (x : ℂ)) = ((2 * x : ℝ) : ℂ) * Complex.I by push_cast; ring,
      Complex.exp_ofReal_mul_I_re, Real.cos_two_mul, Real.cos_sq']
    ring
  rw [key, key, h]

/-- C65: for an evaluation with one mass, and with resonances for every l from 0 to the greatest one, the
cross sections are those of the formula, potential scattering included. -/
theorem C65_regular {nro : Option (ℝ → Outcome ℝ)} {naps : ℤ} {ws : List (Wave × List Assigned)}
    {m : LegacyID → Option ℝ} {A : ℝ}
    (h : Spec.IsBreitWigner K neutronMass E incident target nro naps multi p ws m)
    (hA : ∀ lv ∈ p.lValues, lv.awri = A)
    (hl : p.lValues.map BreitWignerLValue.l = List.range p.lValues.length)
    (hr : ∀ lv ∈ p.lValues, lv.resonances ≠ []) :
    let k := neutronWaveNumber (waveConstant K.hbar neutronMass) A E
    m ⟨incident, target, .elastic⟩ = some (Real.pi / k ^ 2 * (ws.map fun w =>
      if multi then Spec.multiElastic p.spin E w.1 w.2 else Spec.singleElastic p.spin E w.1 w.2).sum) ∧
    m ⟨incident, target, .capture⟩
      = some (Real.pi / k ^ 2 * (ws.map fun w => Spec.captureSum p.spin E w.1 w.2).sum) ∧
    (m ⟨incident, target, .fission⟩).getD 0
      = Real.pi / k ^ 2 * (ws.map fun w => Spec.fissionSum p.spin E w.1 w.2).sum := by
  intro k
  have hsum : ∀ (t : Wave × List Assigned → ℝ) {lvs : List BreitWignerLValue}
      {ws : List (Wave × List Assigned)}, lvs.length = ws.length → (∀ lv ∈ lvs, lv.awri = A) →
      (List.zipWith (fun lv w => Real.pi
        / neutronWaveNumber (waveConstant K.hbar neutronMass) lv.awri E ^ 2 * t w) lvs ws).sum
      = Real.pi / k ^ 2 * (ws.map t).sum := by
    intro t lvs
    induction lvs with
    | nil =>
      intro ws hlen _
      rw [List.eq_nil_of_length_eq_zero hlen.symm]
      simp
    | cons lv lvs ih =>
      intro ws hlen hA
      cases ws with
      | nil => cases hlen
      | cons w ws =>
        rw [List.zipWith_cons_cons, List.sum_cons, List.map_cons, List.sum_cons,
          ih (by simpa using hlen) (fun lv hlv => hA lv (List.mem_cons_of_mem _ hlv)),
          hA lv List.mem_cons_self]
        ring
  have hlen := h.waves.length_eq
  refine ⟨?_, ?_, ?_⟩
  · obtain ⟨before, lv, after, channel, scattering, radius, lmax, φ, e1, -, -, e4, e5, e6, e7, e8, -, e10⟩ :=
      h.elastic
    have hlv : lv ∈ p.lValues := by rw [e1]; simp
    rw [hA lv hlv] at e4 e8 e10
    rw [e10, hsum (fun w => Spec.resonantElastic multi p.spin E w.1 w.2) hlen hA]
    have hmax : lmax + 1 = p.lValues.length := by
      obtain ⟨x, hx, -, hxl⟩ := e7
      have h1 : x.l ∈ List.range p.lValues.length := hl ▸ List.mem_map_of_mem hx
      have h2 : p.lValues.length - 1 ∈ p.lValues.map BreitWignerLValue.l := by
        rw [hl, List.mem_range]
        have := List.length_pos_of_mem hlv
        omega
      obtain ⟨y, hy, hyl⟩ := List.mem_map.mp h2
      have := e6 y hy (hr y hy)
      have := List.mem_range.mp h1
      omega
    have hphase : (ws.map fun w => (2 * (w.1.l : ℝ) + 1) * Real.sin w.1.φ ^ 2).sum
        = ∑ l ∈ Finset.range (lmax + 1), (2 * (l : ℝ) + 1) * Real.sin (φ l) ^ 2 := by
      rw [← Verif.BreitWigner.list_sum_range, hmax, ← hl, List.map_map]
      refine forall₂_sum_eq h.waves fun x hx w hw => ?_
      rw [if_neg (hr x hx)] at hw
      obtain ⟨-, c', s', hw1, hw2⟩ := hw
      rw [hA x hx] at hw1 hw2
      obtain ⟨radius', q1, q2⟩ := hw2.phase
      rw [(isRadii_unique hw1 e4).2, e5] at q1
      obtain rfl := Except.ok.inj q1
      rw [hw2.l, sin_sq_eq_of_exp (q2.trans (e8 x.l (e6 x hx (hr x hx))).symm)]
      rfl
    rw [← hphase]
    congr 1
    have : ∀ ws : List (Wave × List Assigned),
        4 * Real.pi / k ^ 2 * (ws.map fun w => (2 * (w.1.l : ℝ) + 1) * Real.sin w.1.φ ^ 2).sum
        + Real.pi / k ^ 2 * (ws.map fun w => Spec.resonantElastic multi p.spin E w.1 w.2).sum
        = Real.pi / k ^ 2 * (ws.map fun w => if multi then Spec.multiElastic p.spin E w.1 w.2
          else Spec.singleElastic p.spin E w.1 w.2).sum := by
      intro ws
      induction ws with
      | nil => simp
      | cons w ws ih =>
        simp only [List.map_cons, List.sum_cons, mul_add, ← ih]
        unfold Spec.resonantElastic
        ring
    exact this ws
  · rw [h.capture, hsum (fun w => Spec.captureSum p.spin E w.1 w.2) hlen hA]
  · rw [h.fission, hsum (fun w => Spec.fissionSum p.spin E w.1 w.2) hlen hA]

end Verif.Endf
