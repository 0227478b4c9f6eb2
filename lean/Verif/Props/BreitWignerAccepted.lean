import Verif.Props.BreitWignerRange
import Verif.Props.HardSphere

/-!
# Property C65: Breit-Wigner ranges that make sense physically are accepted
-/

namespace Verif

section

theorem hardSphere_pos {ρ : ℝ} (h : 0 < ρ) (l : ℕ) : 0 < (Spec.hardSphere ρ l).1 := by
  induction l with
  | zero => exact h
  | succ l ih =>
    simp only [Spec.hardSphere]
    positivity

variable {K : Constants} {lib : CoulombLibrary} {c : Channel} {E a : ℝ}

theorem neutron_penetrability_of (ht : c.type = .neutron) (hl : c.numbers.l ≤ 4)
    (h : c.radii.penetrability E = .ok a) : c.penetrability K lib E
      = .ok (Spec.hardSphere (c.waveNumber K E * a) c.numbers.l).1 := by
  unfold Channel.penetrability
  rw [neutron_eta ht, h, ht, hardSphere_eq hl]
  exact calculatePenetrability_eq lib hl _ 0

theorem neutron_shiftFactor_of (ht : c.type = .neutron) (hl : c.numbers.l ≤ 4)
    (h : c.radii.shiftFactor E = .ok a) : c.shiftFactor K lib E
      = .ok (Spec.hardSphere (c.waveNumber K E * a) c.numbers.l).2 := by
  unfold Channel.shiftFactor
  rw [neutron_eta ht, h, ht, hardSphere_eq hl]
  exact calculateShiftFactor_eq lib hl _ 0

theorem neutron_phaseShift_of (ht : c.type = .neutron) (hl : c.numbers.l ≤ 4)
    (h : c.radii.phaseShift E = .ok a) : ∃ φ, c.phaseShift K lib E = .ok φ := by
  unfold Channel.phaseShift
  rw [neutron_eta ht, h, ht]
  exact ⟨_, calculatePhaseShift_eq lib hl _ 0⟩

end

namespace Endf

open Spec (Wave Assigned neutronWaveNumber waveConstant)

variable {K : Constants} {lib : CoulombLibrary} {tables : InterpolationLibrary}
  {initialBreitWigner : Channel → Verif.BreitWigner.Cache}
  {neutronMass E : ℝ} {incident target : Str} {nro : Option (ℝ → Outcome ℝ)} {naps : ℤ} {p : BreitWigner}

theorem radii_of_isRadii {ap awri : ℝ} {channel scattering : ℝ → Outcome ℝ}
    (hm : 0 ≤ awri * neutronMass)
    (h : Spec.IsRadii ap nro naps (awri * neutronMass) channel scattering) :
    ∃ radii, makeChannelRadii ap nro naps awri neutronMass = .ok radii ∧
      radii.penetrability = channel ∧ radii.shiftFactor = channel ∧ radii.phaseShift = scattering := by
  obtain ⟨first, second, h1, h2⟩ := h
  have hn' : nro.isSome ∨ naps = 0 ∨ naps = 1 := by
    by_contra hc
    simp only [not_or] at hc
    obtain ⟨k1, k2, k3⟩ := hc
    cases nro with
    | some f => exact absurd rfl k1
    | none =>
      unfold Spec.prescribedRadii at h1
      split at h1 <;> simp_all
  have := C31_partial ap nro naps awri neutronMass hm hn'
  rw [h1] at this
  obtain ⟨radii, e1, e2⟩ := this
  exact ⟨radii, e1, funext fun e => isRadius_unique (e2 e).1 (h2 e).1,
    funext fun e => isRadius_unique (e2 e).2.1 (h2 e).1,
    funext fun e => isRadius_unique (e2 e).2.2 (h2 e).2⟩

theorem waveNumber_pos (K : Constants) {A e : ℝ} (hm : 0 < neutronMass) (hA : 0 < A) (he : e ≠ 0) :
    0 < neutronWaveNumber (waveConstant K.hbar neutronMass) A e := by
  have := K.hbar_pos
  have h1 : 0 < Real.sqrt |e| := Real.sqrt_pos.mpr (abs_pos.mpr he)
  have h2 : 0 < Real.sqrt (2 * neutronMass) := Real.sqrt_pos.mpr (by positivity)
  unfold Spec.neutronWaveNumber Spec.waveConstant
  positivity

theorem breitWignerResonance_exists {pair : ParticlePair} {radii : ChannelRadii} {lv : BreitWignerLValue}
    {n : QuantumNumbers} {spin : ℚ} (hm : 0 < neutronMass) (hA : 0 < lv.awri)
    (hpair : incidentPair neutronMass incident target lv.awri spin = .ok pair)
    (hn : n.l = lv.l) (hl : lv.l ≤ 4) (hs : radii.shiftFactor = radii.penetrability)
    {r : BreitWignerResonance} (hr : r.energy ≠ 0 ∧ (∃ a, 0 < a ∧ radii.penetrability r.energy = .ok a) ∧
      (lv.lrx ≠ 0 → r.energy - lv.qx ≠ 0 ∧ ∃ a, 0 < a ∧ radii.penetrability (r.energy - lv.qx) = .ok a)) :
    ∃ res, breitWignerResonance K lib (plainChannel .neutron pair pair n radii) lv.qx lv.lrx r
      = .ok res := by
  obtain ⟨he, ⟨a, ha, hca⟩, hx⟩ := hr
  have hk : ∀ e, (plainChannel .neutron pair pair n radii).waveNumber K e
      = neutronWaveNumber (waveConstant K.hbar neutronMass) lv.awri e :=
    fun e => lChannel_waveNumber hpair radii lv.l e
  have hl' : (plainChannel .neutron pair pair n radii).numbers.l ≤ 4 := hn ▸ hl
  have e1 := neutron_penetrability_of (K := K) (lib := lib)
    (c := plainChannel .neutron pair pair n radii) rfl hl' hca
  have e2 := neutron_shiftFactor_of (K := K) (lib := lib)
    (c := plainChannel .neutron pair pair n radii) (E := r.energy) (a := a) rfl hl' (by
      change radii.shiftFactor r.energy = _
      rw [hs]
      exact hca)
  have p1 : 0 < (Spec.hardSphere ((plainChannel .neutron pair pair n radii).waveNumber K r.energy * a)
      (plainChannel .neutron pair pair n radii).numbers.l).1 := by
    apply hardSphere_pos
    rw [hk]
    exact mul_pos (waveNumber_pos K hm hA he) ha
  unfold breitWignerResonance
  rw [e1, e2]
  by_cases hlrx : lv.lrx = 0
  · simp only [hlrx, ne_eq, not_true_eq_false, if_false, bind, Except.bind]
    unfold Verif.BreitWigner.makeResonance
    rw [if_neg (by simp [p1.ne'])]
    exact ⟨_, rfl⟩
  · obtain ⟨hx0, b, hb, hcb⟩ := hx hlrx
    have e3 := neutron_penetrability_of (K := K) (lib := lib)
      (c := plainChannel .neutron pair pair n radii) rfl hl' hcb
    have p2 : 0 < (Spec.hardSphere ((plainChannel .neutron pair pair n radii).waveNumber K
        (r.energy - lv.qx) * b) (plainChannel .neutron pair pair n radii).numbers.l).1 := by
      apply hardSphere_pos
      rw [hk]
      exact mul_pos (waveNumber_pos K hm hA hx0) hb
    simp only [hlrx, ne_eq, not_false_eq_true, if_true, bind, Except.bind]
    rw [e3]
    unfold Verif.BreitWigner.makeResonance
    simp only
    rw [if_neg (by simp [p1.ne', p2.ne'])]
    exact ⟨_, rfl⟩

theorem breitWignerGroups_exists {initial : Channel → Verif.BreitWigner.Cache} {pair : ParticlePair}
    {radii : ChannelRadii} {lv : BreitWignerLValue}
    (hres : ∀ n : QuantumNumbers, n.l = lv.l → ∀ r ∈ lv.resonances, ∃ res,
      breitWignerResonance K lib (plainChannel .neutron pair pair n radii) lv.qx lv.lrx r = .ok res)
    {Js : List ℚ} {available : List QuantumNumbers} (hJ : (Js.map fun J => |J|).Nodup)
    (hav : ∀ J ∈ Js, ∃ n ∈ available, n.l = lv.l ∧ n.J = |J|) :
    ∃ groups rest, breitWignerGroups K lib initial pair radii lv Js available = .ok (groups, rest) ∧
      ∀ n ∈ available, n.l ≠ lv.l → n ∈ rest := by
  induction Js generalizing available with
  | nil => exact ⟨[], available, rfl, fun n hn _ => hn⟩
  | cons J Js ih =>
    rw [List.map_cons, List.nodup_cons] at hJ
    obtain ⟨n, rest, h1⟩ : ∃ n rest, retrieveQuantumNumber lv.l J available = .ok (n, rest) := by
      cases h : retrieveQuantumNumber lv.l J available with
      | ok v => exact ⟨v.1, v.2, rfl⟩
      | error e =>
        obtain ⟨n, hn, k⟩ := hav J List.mem_cons_self
        exact absurd k (((C06_fails_iff _ _ _ _).mp h).2 n hn)
    obtain ⟨k1, k2, k3⟩ := C06_success _ _ _ _ _ h1
    have hmem : ∀ x ∈ available, x ≠ n → x ∈ rest := by
      intro x hx hne
      rcases List.mem_cons.mp (k3.symm.subset hx) with h | h
      · exact absurd h hne
      · exact h
    obtain ⟨rs, h2⟩ := mapM_exists.mpr fun r (hr : r ∈ lv.resonances.filter fun r => r.spin == J) =>
      hres n k1 r (List.mem_filter.mp hr).1
    obtain ⟨groups, rest', h3, h4⟩ := ih hJ.2 (available := rest) (by
      intro J' hJ'
      obtain ⟨x, hx, hxl, hxJ⟩ := hav J' (List.mem_cons_of_mem _ hJ')
      refine ⟨x, hmem x hx ?_, hxl, hxJ⟩
      rintro rfl
      apply hJ.1
      rw [← k2, hxJ]
      exact List.mem_map_of_mem hJ')
    refine ⟨Verif.BreitWigner.makeSpinGroup (plainChannel .neutron pair pair n radii) rs lv.qx
      (initial (plainChannel .neutron pair pair n radii)) :: groups, rest', ?_, fun x hx hne =>
      h4 x (hmem x hx ?_) hne⟩
    · unfold breitWignerGroups
      rw [h1]
      simp only [bind, Except.bind]
      rw [h2]
      simp only
      rw [h3]
      rfl
    · rintro rfl
      exact hne k1

/-- The construction succeeds. -/
theorem system_exists (h : Spec.PhysicalBreitWigner neutronMass nro naps p) :
    ∃ s, makeLegacyBreitWignerCompoundSystem K lib initialBreitWigner neutronMass incident target nro naps p
      = .ok s := by
  have hpair : ∀ lv ∈ p.lValues, ∃ pair, incidentPair neutronMass incident target lv.awri p.spin = .ok pair :=
    fun lv hlv => ⟨_, incidentPair_eq incident target p.spin h.mass (h.awri lv hlv).le⟩
  have hover : ∀ (lvs : List BreitWignerLValue) (available : List QuantumNumbers),
      (∀ lv ∈ lvs, lv ∈ p.lValues) → (lvs.map BreitWignerLValue.l).Nodup →
      (∀ lv ∈ lvs, ∀ r ∈ lv.resonances, ∃ n ∈ available, n.l = lv.l ∧ n.J = |r.spin|) →
      ∃ groups rest, overLValues (makeLegacyBreitWignerSpinGroups K lib initialBreitWigner neutronMass
        incident target p.spin p.ap nro naps) lvs available = .ok (groups, rest) := by
    intro lvs
    induction lvs with
    | nil => exact fun available _ _ _ => ⟨[], available, rfl⟩
    | cons lv lvs ih =>
      intro available hsub hnd hav
      have hlv := hsub lv List.mem_cons_self
      rw [List.map_cons, List.nodup_cons] at hnd
      obtain ⟨pair, hp⟩ := hpair lv hlv
      obtain ⟨channel, scattering, r1, r2⟩ := h.radii lv hlv
      have hm0 : 0 ≤ lv.awri * neutronMass := (mul_pos (h.awri lv hlv) h.mass).le
      obtain ⟨radii, q1, q2, q3, q4⟩ := radii_of_isRadii hm0 r1
      obtain ⟨groups, rest, g1, g2⟩ := breitWignerGroups_exists (K := K) (lib := lib)
        (initial := initialBreitWigner) (pair := pair) (radii := radii) (lv := lv)
        (Js := sortUnique (lv.resonances.map BreitWignerResonance.spin)) (available := available) (by
          intro n hn r hr
          refine breitWignerResonance_exists h.mass (h.awri lv hlv) hp hn
            (h.l lv hlv (List.ne_nil_of_mem hr)).2 (q3.trans q2.symm) ?_
          rw [q2]
          exact r2 r hr) (by
          refine List.Nodup.map_on ?_ ((sortUnique_sorted _).imp fun h => h.ne)
          intro a ha b hb hab
          rw [mem_sortUnique] at ha hb
          obtain ⟨r, hr, rfl⟩ := List.mem_map.mp ha
          obtain ⟨r', hr', rfl⟩ := List.mem_map.mp hb
          exact h.signs lv hlv r hr r' hr' hab) (by
          intro J hJ
          rw [mem_sortUnique] at hJ
          obtain ⟨r, hr, rfl⟩ := List.mem_map.mp hJ
          exact hav lv List.mem_cons_self r hr)
      obtain ⟨groups', rest', k⟩ := ih rest (fun x hx => hsub x (List.mem_cons_of_mem _ hx)) hnd.2 (by
        intro x hx r hr
        obtain ⟨n, hn, hnl, hnJ⟩ := hav x (List.mem_cons_of_mem _ hx) r hr
        refine ⟨n, g2 n hn ?_, hnl, hnJ⟩
        rw [hnl]
        intro he
        exact hnd.1 (he ▸ List.mem_map_of_mem hx))
      refine ⟨groups ++ groups', rest', ?_⟩
      unfold overLValues makeLegacyBreitWignerSpinGroups
      rw [hp]
      simp only [bind, Except.bind]
      rw [q1]
      simp only
      rw [g1]
      simp only
      unfold makeLegacyBreitWignerSpinGroups at k
      simp only [bind, Except.bind] at k
      rw [k]
      rfl
  obtain ⟨lv0, hlv0, hne0⟩ := h.some
  obtain ⟨first, rest, hfirst⟩ := List.exists_cons_of_ne_nil (List.ne_nil_of_mem hlv0)
  obtain ⟨pair, hp⟩ := hpair first (by rw [hfirst]; exact List.mem_cons_self)
  obtain ⟨groups, rest', hg⟩ := hover p.lValues (makeQuantumNumbers (1 / 2) p.spin p.lValues.length)
    (fun _ h => h) h.distinct (by
      intro lv hlv r hr
      obtain ⟨s, s1, s2⟩ := h.spins lv hlv r hr
      refine ⟨⟨lv.l, s, |r.spin|, (-1) ^ lv.l⟩, ?_, rfl, rfl⟩
      rw [(C05_enumeration (1 / 2) p.spin ⟨1, by norm_num⟩ h.spin _).1]
      exact ⟨(h.l lv hlv (List.ne_nil_of_mem hr)).1, s1, s2, rfl⟩)
  obtain ⟨gss, rfl, hgss⟩ := overLValues_ok hg
  have hgss' : List.Forall₂ (fun lv gs => lv.resonances ≠ [] → gs ≠ []) p.lValues gss ∧
      List.Forall₂ (fun lv gs => (gs.map fun g : Verif.BreitWigner.SpinGroup =>
        (g.channel.numbers.l, g.channel.numbers.J))
          = (sortUnique (lv.resonances.map BreitWignerResonance.spin)).map fun J => (lv.l, |J|))
        p.lValues gss := by
    have key : List.Forall₂ (fun (lv : BreitWignerLValue) gs => ∃ pair radii,
        List.Forall₂ (IsGroup K lib pair radii lv)
          (sortUnique (lv.resonances.map BreitWignerResonance.spin)) gs) p.lValues gss := by
      refine hgss.imp ?_
      rintro lv gs ⟨a, a', h3⟩
      unfold makeLegacyBreitWignerSpinGroups at h3
      obtain ⟨pair, e1, h3⟩ := bind_ok.mp h3
      obtain ⟨radii, e2, h3⟩ := bind_ok.mp h3
      exact ⟨pair, radii, breitWignerGroups_ok h3⟩
    constructor
    · refine key.imp ?_
      rintro lv gs ⟨pair, radii, k⟩ hne rfl
      have := k.length_eq
      obtain ⟨r, hr⟩ := List.exists_mem_of_ne_nil _ hne
      have hr' := mem_sortUnique.mpr (List.mem_map_of_mem (f := BreitWignerResonance.spin) hr)
      rw [List.eq_nil_of_length_eq_zero this] at hr'
      cases hr'
    · refine key.imp ?_
      rintro lv gs ⟨pair, radii, k⟩
      generalize sortUnique (lv.resonances.map BreitWignerResonance.spin) = Js at k ⊢
      induction k with
      | nil => rfl
      | cons k1 _ ih =>
        rw [List.map_cons, List.map_cons, ih, (group_channel k1).2.2.2.2.2.1,
          (group_channel k1).2.2.2.2.2.2.1]
  obtain ⟨s, hs⟩ : ∃ s, LegacySystem.make Verif.BreitWigner.SpinGroup.channel gss.flatten = .ok s := by
    rw [Verif.BreitWigner.C35_accepted]
    constructor
    · obtain ⟨gs, hgs, k⟩ := forall₂_mem_left hgss'.1 hlv0
      obtain ⟨g, hg⟩ := List.exists_mem_of_ne_nil _ (k hne0)
      exact List.ne_nil_of_mem (List.mem_flatten.mpr ⟨gs, hgs, hg⟩)
    · rw [List.map_flatten, List.nodup_flatten]
      have hsigns : ∀ lv ∈ p.lValues,
          ((sortUnique (lv.resonances.map BreitWignerResonance.spin)).map fun J => (lv.l, |J|)).Nodup := by
        intro lv hlv
        refine List.Nodup.map_on ?_ ((sortUnique_sorted _).imp fun h => h.ne)
        intro a ha b hb hab
        rw [mem_sortUnique] at ha hb
        obtain ⟨r, hr, rfl⟩ := List.mem_map.mp ha
        obtain ⟨r', hr', rfl⟩ := List.mem_map.mp hb
        exact h.signs lv hlv r hr r' hr' (Prod.mk.inj hab).2
      constructor
      · intro x hx
        obtain ⟨gs, hgs, rfl⟩ := List.mem_map.mp hx
        obtain ⟨lv, hlv, k⟩ := forall₂_mem_right hgss'.2 hgs
        rw [k]
        exact hsigns lv hlv
      · rw [List.pairwise_map]
        have hd := h.distinct
        have hk := hgss'.2
        generalize p.lValues = lvs at hd hk
        clear hgss hgss' hg
        induction hk with
        | nil => exact .nil
        | @cons lv gs lvs gss k1 k2 ih =>
          rw [List.map_cons, List.nodup_cons] at hd
          refine .cons ?_ (ih hd.2)
          intro gs' hgs' x hx hx'
          obtain ⟨lv', hlv', k'⟩ := forall₂_mem_right k2 hgs'
          rw [k1] at hx
          rw [k'] at hx'
          obtain ⟨J, -, rfl⟩ := List.mem_map.mp hx
          obtain ⟨J', -, e⟩ := List.mem_map.mp hx'
          exact hd.1 ((Prod.mk.inj e).1 ▸ List.mem_map_of_mem hlv')
  refine ⟨s, ?_⟩
  unfold makeLegacyBreitWignerCompoundSystem
  rw [hfirst] at hg ⊢
  simp only [bind, Except.bind]
  rw [hp]
  simp only
  rw [hg]
  exact hs

theorem hardSphere_nonneg {ρ : ℝ} (h : 0 ≤ ρ) (l : ℕ) : 0 ≤ (Spec.hardSphere ρ l).1 := by
  induction l with
  | zero => exact h
  | succ l ih =>
    simp only [Spec.hardSphere]
    positivity

theorem waveNumber_nonneg (K : Constants) {A : ℝ} (hm : 0 < neutronMass) (hA : 0 < A) (e : ℝ) :
    0 ≤ neutronWaveNumber (waveConstant K.hbar neutronMass) A e := by
  by_cases he : e = 0
  · rw [he, neutronWaveNumber, abs_zero, Real.sqrt_zero, mul_zero]
  · exact (waveNumber_pos K hm hA he).le

/-- Each group can be evaluated. -/
theorem group_exists {pair : ParticlePair} {radii : ChannelRadii} {lv : BreitWignerLValue} {J : ℚ}
    {g : Verif.BreitWigner.SpinGroup} (hg : IsGroup K lib pair radii lv J g)
    (h : Spec.PhysicalBreitWigner neutronMass nro naps p) (hlv : lv ∈ p.lValues)
    (hne : lv.resonances ≠ [])
    (hpair : incidentPair neutronMass incident target lv.awri p.spin = .ok pair)
    (hradii : makeChannelRadii p.ap nro naps lv.awri neutronMass = .ok radii)
    (hE : E ≠ 0) (hr : Spec.HasRadii neutronMass nro naps p E) :
    ∃ P Q S φ, Verif.BreitWigner.Values K lib g E P Q S φ := by
  have hA := h.awri lv hlv
  have hm0 : 0 ≤ lv.awri * neutronMass := (mul_pos hA h.mass).le
  obtain ⟨channel, scattering, r1, r2⟩ := h.radii lv hlv
  obtain ⟨channel', scattering', r3, ⟨a, ha, hca⟩, ⟨b, hb, hcb⟩, d, hd⟩ := hr lv hlv
  obtain ⟨radii', q1, q2, q3, q4⟩ := radii_of_isRadii hm0 r1
  obtain rfl := Except.ok.inj (q1.symm.trans hradii)
  obtain ⟨radii', q5, q6, q7, q8⟩ := radii_of_isRadii hm0 r3
  obtain rfl := Except.ok.inj (q5.symm.trans hradii)
  rw [← q6] at hca hcb
  rw [← q8] at hd
  rw [← q2] at r2
  obtain ⟨n, hn1, hn2, hc⟩ := hg.channel
  have hl : g.channel.numbers.l ≤ 4 := by
    rw [hc]
    exact hn1 ▸ (h.l lv hlv hne).2
  have ht : g.channel.type = .neutron := by rw [hc]; rfl
  have hrad : g.channel.radii = radii' := by rw [hc]; rfl
  have hk : ∀ e, g.channel.waveNumber K e
      = neutronWaveNumber (waveConstant K.hbar neutronMass) lv.awri e := by
    intro e
    rw [hc]
    exact lChannel_waveNumber hpair radii' lv.l e
  have e1 := neutron_penetrability_of (K := K) (lib := lib) (c := g.channel) (E := E) (a := a) ht hl
    (by rw [hrad]; exact hca)
  have e2 := neutron_penetrability_of (K := K) (lib := lib) (c := g.channel) (E := E - lv.qx) (a := b) ht
    hl (by rw [hrad]; exact hcb)
  have e3 := neutron_shiftFactor_of (K := K) (lib := lib) (c := g.channel) (E := E) (a := a) ht hl
    (by rw [hrad, q7, ← q6]; exact hca)
  obtain ⟨φ, e4⟩ := neutron_phaseShift_of (K := K) (lib := lib) (c := g.channel) (E := E) (a := d) ht hl
    (by rw [hrad]; exact hd)
  have p1 : 0 < (Spec.hardSphere (g.channel.waveNumber K E * a) g.channel.numbers.l).1 := by
    apply hardSphere_pos
    rw [hk]
    exact mul_pos (waveNumber_pos K h.mass hA hE) ha
  have p2 : 0 ≤ (Spec.hardSphere (g.channel.waveNumber K (E - lv.qx) * b) g.channel.numbers.l).1 := by
    apply hardSphere_nonneg
    rw [hk]
    exact mul_nonneg (waveNumber_nonneg K h.mass hA _) hb.le
  obtain ⟨Q, hQ, e5⟩ : ∃ Q, 0 ≤ Q ∧ g.competitionPenetrability K lib E
      (Spec.hardSphere (g.channel.waveNumber K E * a) g.channel.numbers.l).1 = .ok Q := by
    unfold Verif.BreitWigner.SpinGroup.competitionPenetrability
    rw [hg.qx]
    split
    · exact ⟨_, p2, e2⟩
    · exact ⟨_, p1.le, rfl⟩
  refine ⟨_, Q, _, φ, e1, e5, e3, e4, ?_, ?_⟩
  · rw [hk]
    exact (waveNumber_pos K h.mass hA hE).ne'
  · intro r hr
    obtain ⟨x, hx, hxr⟩ := forall₂_mem_right hg.resonances hr
    have hx := (List.mem_filter.mp hx).1
    obtain ⟨⟨P0, v1, v2⟩, ⟨Q0, v3, v4⟩, ⟨S0, v5⟩, v6⟩ := breitWignerResonance_ok hxr
    obtain ⟨x1, ⟨a1, ha1, x2⟩, x3⟩ := r2 x hx
    obtain ⟨w1, w2, w3, w4⟩ := h.widths lv hlv x hx
    have hP0 : 0 < P0 := by
      rw [neutron_penetrability_of (K := K) (lib := lib) (c := g.channel) (E := x.energy) (a := a1) ht hl
        (by rw [hrad]; exact x2)] at v1
      rw [← Except.ok.inj v1]
      apply hardSphere_pos
      rw [hk]
      exact mul_pos (waveNumber_pos K h.mass hA x1) ha1
    have hQ0 : 0 < Q0 := by
      by_cases hlrx : lv.lrx ≠ 0
      · rw [if_pos hlrx] at v3
        obtain ⟨y1, a2, ha2, y2⟩ := x3 hlrx
        rw [neutron_penetrability_of (K := K) (lib := lib) (c := g.channel) (E := x.energy - lv.qx)
          (a := a2) ht hl (by rw [hrad]; exact y2)] at v3
        rw [← Except.ok.inj v3]
        apply hardSphere_pos
        rw [hk]
        exact mul_pos (waveNumber_pos K h.mass hA y1) ha2
      · rw [if_neg hlrx, v1] at v3
        rw [← Except.ok.inj v3]
        exact hP0
    have hw4 : (0 : ℝ) ≤ if lv.lrx ≠ 0 then x.competitiveWidth else 0 := by
      split
      · exact w4
      · exact le_refl _
    unfold Verif.BreitWigner.Made lAssigned Verif.BreitWigner.makeResonance at v6
    rw [value_ok v1, value_ok v3, value_ok v5, if_neg (by simp [hP0.ne', hQ0.ne'])] at v6
    have hT : ∀ P, 0 < P → 0 < r.totalAt P Q := by
      intro P hP
      rw [← Except.ok.inj v6]
      unfold Verif.BreitWigner.Resonance.totalAt Verif.BreitWigner.Resonance.elasticAt
        Verif.BreitWigner.Resonance.competitionAt
      simp only
      have t1 : 0 ≤ P * (x.neutronWidth / P0) := by positivity
      have t2 : 0 ≤ Q * ((if lv.lrx ≠ 0 then x.competitiveWidth else 0) / Q0) :=
        mul_nonneg hQ (div_nonneg hw4 hQ0.le)
      linarith
    have := hT _ p1
    have h4 : 0 < 0.25 * r.totalAt (Spec.hardSphere (g.channel.waveNumber K E * a) g.channel.numbers.l).1 Q
        * r.totalAt (Spec.hardSphere (g.channel.waveNumber K E * a) g.channel.numbers.l).1 Q :=
      mul_pos (mul_pos (by norm_num) this) this
    have h5 := mul_self_nonneg (E - r.energyPrime
      (Spec.hardSphere (g.channel.waveNumber K E * a) g.channel.numbers.l).2)
    linarith

theorem evaluateGroups_exists {G : Type} {step : G → LegacyMap → Outcome (LegacyMap × G)} {gs : List G}
    (h : ∀ g ∈ gs, ∀ m, ∃ v, step g m = .ok v) (m : LegacyMap) :
    ∃ v, LegacySystem.evaluateGroups step gs m = .ok v := by
  induction gs generalizing m with
  | nil => exact ⟨_, rfl⟩
  | cons g gs ih =>
    obtain ⟨⟨m1, g1⟩, h1⟩ := h g List.mem_cons_self m
    obtain ⟨⟨m2, gs2⟩, h2⟩ := ih (fun g hg => h g (List.mem_cons_of_mem _ hg)) m1
    exact ⟨_, LegacySystem.evaluateGroups_cons_ok.mpr ⟨m1, g1, gs2, h1, h2, rfl⟩⟩

/-- The system can be evaluated. -/
theorem system_evaluates (h : Spec.PhysicalBreitWigner neutronMass nro naps p)
    {s : LegacySystem Verif.BreitWigner.SpinGroup} {multi : Bool}
    (hs : makeLegacyBreitWignerCompoundSystem K lib initialBreitWigner neutronMass incident target nro naps p
      = .ok s) (hE : E ≠ 0) (hr : Spec.HasRadii neutronMass nro naps p E) (m : LegacyMap) :
    ∃ v, s.evaluate K lib Verif.BreitWigner.SpinGroup.channel
      (Verif.BreitWigner.evaluate K lib E (formalism multi)) E m = .ok v := by
  obtain ⟨gss, h1, h2⟩ := system_ok hs
  obtain ⟨c1, c2, c3⟩ := Verif.BreitWigner.C35_contents h1
  obtain ⟨a1, a2⟩ := (Verif.BreitWigner.C35_accepted _ _).mp ⟨s, h1⟩
  have hgroup : ∀ g ∈ gss.flatten, ∃ lv ∈ p.lValues, ∃ pair radii J,
      incidentPair neutronMass incident target lv.awri p.spin = .ok pair ∧
      makeChannelRadii p.ap nro naps lv.awri neutronMass = .ok radii ∧
      lv.resonances ≠ [] ∧ IsGroup K lib pair radii lv J g := by
    intro g hg
    obtain ⟨gs, hgs, hg⟩ := List.mem_flatten.mp hg
    obtain ⟨lv, hlv, pair, radii, k1, k2, k3⟩ := forall₂_mem_right h2 hgs
    obtain ⟨J, hJ, k4⟩ := forall₂_mem_right k3 hg
    refine ⟨lv, hlv, pair, radii, J, k1, k2, ?_, k4⟩
    intro h0
    rw [mem_sortUnique, h0] at hJ
    cases hJ
  have hstep : ∀ g ∈ gss.flatten, ∀ m, ∃ v, Verif.BreitWigner.evaluate K lib E (formalism multi) g m
      = .ok v := by
    intro g hg m
    obtain ⟨lv, hlv, pair, radii, J, k1, k2, k3, k4⟩ := hgroup g hg
    obtain ⟨P, Q, S, φ, hV⟩ := group_exists k4 h hlv k3 k1 k2 hE hr
    cases multi with
    | false => exact ⟨_, Verif.BreitWigner.evaluateSLBW_of hV m⟩
    | true => exact ⟨_, Verif.BreitWigner.evaluateMLBW_of hV m⟩
  obtain ⟨⟨m1, gs'⟩, hv⟩ := evaluateGroups_exists hstep m
  obtain ⟨hch, -⟩ := LegacySystem.evaluateGroups_sum (channel := Verif.BreitWigner.SpinGroup.channel)
    (R := fun _ _ => True) (fun g _ m m' g' hm => by
      obtain ⟨p, q, s, φ, hV, rfl, h⟩ := Verif.BreitWigner.evaluate_values hm
      exact ⟨rfl, _, trivial, fun id => by rw [h id, add_assoc]⟩) hv
  obtain ⟨first, rest, hfirst⟩ := List.exists_cons_of_ne_nil a1
  obtain ⟨first', rest', rfl⟩ : ∃ first' rest', gs' = first' :: rest' := by
    cases gs' with
    | nil => rw [hfirst] at hch; cases hch
    | cons x y => exact ⟨x, y, rfl⟩
  have hc : first'.channel = first.channel := by
    rw [hfirst] at hch
    exact (List.cons.inj hch).1
  obtain ⟨lv, hlv, pair, radii, J, k1, k2, k3, k4⟩ := hgroup first (by rw [hfirst]; exact List.mem_cons_self)
  obtain ⟨channel', scattering', r3, ⟨a, ha, hca⟩, ⟨b, hb, hcb⟩, d, hd⟩ := hr lv hlv
  obtain ⟨radii', q1, q2, q3, q4⟩ := radii_of_isRadii (mul_pos (h.awri lv hlv) h.mass).le r3
  obtain rfl := Except.ok.inj (q1.symm.trans k2)
  obtain ⟨-, -, -, u1, -, -, -, u2, -⟩ := group_channel k4
  have hlmax : s.lmax ≤ 4 := by
    obtain ⟨g, hg, hgl⟩ := c3
    obtain ⟨lv, hlv, pair, radii, J, k1, k2, k3, k4⟩ := hgroup g hg
    obtain ⟨-, -, -, -, -, u, -⟩ := group_channel k4
    rw [← hgl, u]
    exact (h.l lv hlv k3).2
  obtain ⟨v, hpot⟩ := LegacySystem.potential_exists (lib := lib)
    (ratio := first'.channel.waveNumber K E * d) hlmax
  refine ⟨_, LegacySystem.evaluate_of (by rw [c1]; exact hv) (radius := d) ?_ ?_ hpot⟩
  · rw [hc, u2, q4]
    exact hd
  · rw [hc, u1, lChannel_waveNumber k1]
    exact (waveNumber_pos K h.mass (h.awri lv hlv) hE).ne'

/-- The table of radii is made when each of its interpolation regions can be made. -/
theorem radiusTable_of {radius : Option ScatteringRadius}
    (h : Option.Rel (Spec.IsRadiusTable tables) radius nro) :
    makeChannelRadiusTable tables radius = .ok nro := by
  cases h with
  | none => rfl
  | @some r f hf =>
    obtain ⟨fs, h1, h2⟩ := hf
    unfold makeChannelRadiusTable
    have : (r.regions.zip r.interpolants).mapM (fun p => makeRegion tables p.1 p.2) = .ok fs := by
      refine mapM_ok.mpr (h1.imp ?_)
      rintro region g ⟨law, hl, hg⟩
      unfold makeRegion
      unfold Spec.Law.ofCode at hl
      split at hl
      all_goals first
        | (cases hl; done)
        | (obtain rfl := Option.some.inj hl; rename_i hc; simp only [hc]; exact hg)
    simp only
    rw [this]
    simp only [bind, Except.bind]
    rw [h2]
    rfl

variable {reactions : ReactionLibrary} {initial : (g : SpinGroup) → MatrixCache g.channels.length}
  {elementaryCharge : ℝ} {range : Range} {multi : Bool}

/-- C65: a Breit-Wigner range that makes sense physically is accepted, and it can be evaluated at every
energy at which it has radii. -/
theorem C65_accepted (hm : range.type = 1 ∧ range.representation = if multi then 2 else 1)
    (hp : range.parameters = if multi then .multiLevel p else .singleLevel p)
    (ht : Option.Rel (Spec.IsRadiusTable tables) range.scatteringRadius nro)
    (h : Spec.PhysicalBreitWigner neutronMass nro range.naps p) :
    ∃ R, fromENDF K lib tables reactions initialBreitWigner initial neutronMass elementaryCharge incident
        target range = .ok R ∧
      ∀ E, E ≠ 0 → Spec.HasRadii neutronMass nro range.naps p E → ∃ v, R.call K lib E = .ok v := by
  obtain ⟨s, hs⟩ := system_exists (K := K) (lib := lib) (initialBreitWigner := initialBreitWigner)
    (incident := incident) (target := target) h
  unfold fromENDF
  rw [radiusTable_of ht]
  simp only [bind, Except.bind]
  cases multi with
  | false =>
    simp only [Bool.false_eq_true, if_false] at hm hp
    rw [hm.1, hm.2, hp]
    simp only [if_true]
    rw [hs]
    refine ⟨_, rfl, fun E hE hr => ?_⟩
    obtain ⟨v, hv⟩ := system_evaluates (multi := false) h hs hE hr fun _ => none
    unfold Reconstructor.call
    split
    · unfold SystemVariant.evaluate
      exact ⟨_, by simp only [bind, Except.bind]; erw [hv]; rfl⟩
    · exact ⟨_, rfl⟩
  | true =>
    simp only [if_true] at hm hp
    rw [hm.1, hm.2, hp]
    simp only [if_true]
    rw [if_neg (by norm_num), hs]
    refine ⟨_, rfl, fun E hE hr => ?_⟩
    obtain ⟨v, hv⟩ := system_evaluates (multi := true) h hs hE hr fun _ => none
    unfold Reconstructor.call
    split
    · unfold SystemVariant.evaluate
      exact ⟨_, by simp only [bind, Except.bind]; erw [hv]; rfl⟩
    · exact ⟨_, rfl⟩

/-! ### An example: two s-wave resonances and a p-wave resonance of a target without spin -/

namespace BreitWignerExample

/-- The evaluation. -/
noncomputable def evaluation : BreitWigner :=
  ⟨0, 1 / 2, [⟨0, 10, 0, 0, [⟨-1, 1 / 2, 1, 1 / 10, 0, 0⟩, ⟨5, 1 / 2, 2, 1 / 5, 1 / 4, 0⟩]⟩,
    ⟨1, 10, 0, 0, [⟨7, 3 / 2, 1, 1 / 10, 0, 0⟩]⟩]⟩

theorem radii (mass : ℝ) : Spec.IsRadii (1 / 2) none 1 mass (fun _ => .ok (1 / 2)) fun _ => .ok (1 / 2) :=
  ⟨.constant, .constant, rfl, fun _ => ⟨rfl, rfl⟩⟩

theorem physical : Spec.PhysicalBreitWigner 1 none 1 evaluation where
  mass := one_pos
  spin := ⟨0, by norm_num [evaluation]⟩
  some := ⟨_, List.mem_cons_self, by simp⟩
  distinct := by simp [evaluation]
  awri := by simp [evaluation]
  l := by simp [evaluation]
  spins := by
    intro lv hlv r hr
    simp only [evaluation, List.mem_cons, List.not_mem_nil, or_false] at hlv
    rcases hlv with rfl | rfl
    · have e : r.spin = 1 / 2 := by
        simp only [List.mem_cons, List.not_mem_nil, or_false] at hr
        rcases hr with rfl | rfl <;> rfl
      rw [e, abs_of_pos (by norm_num)]
      exact ⟨1 / 2, ⟨by norm_num [evaluation, abs_of_pos], by norm_num [evaluation],
        1, by norm_num [evaluation]⟩, by norm_num, by norm_num, 1, by norm_num⟩
    · have e : r.spin = 3 / 2 := by
        simp only [List.mem_cons, List.not_mem_nil, or_false] at hr
        rcases hr with rfl <;> rfl
      rw [e, abs_of_pos (by norm_num)]
      exact ⟨1 / 2, ⟨by norm_num [evaluation, abs_of_pos], by norm_num [evaluation],
        1, by norm_num [evaluation]⟩, by norm_num [abs_of_pos], by norm_num, 3, by norm_num⟩
  signs := by
    intro lv hlv r hr r' hr' h
    simp only [evaluation, List.mem_cons, List.not_mem_nil, or_false] at hlv
    rcases hlv with rfl | rfl <;> simp only [List.mem_cons, List.not_mem_nil, or_false] at hr hr'
    · rcases hr with rfl | rfl <;> rcases hr' with rfl | rfl <;> rfl
    · rcases hr with rfl <;> rcases hr' with rfl <;> rfl
  widths := by
    intro lv hlv r hr
    simp only [evaluation, List.mem_cons, List.not_mem_nil, or_false] at hlv
    rcases hlv with rfl | rfl <;> simp only [List.mem_cons, List.not_mem_nil, or_false] at hr
    · rcases hr with rfl | rfl <;> norm_num
    · rcases hr with rfl; norm_num
  radii := by
    intro lv hlv
    refine ⟨fun _ => .ok (1 / 2), fun _ => .ok (1 / 2), radii _, fun r hr => ⟨?_, ⟨1 / 2, by norm_num, rfl⟩, fun hlrx => ?_⟩⟩
    · simp only [evaluation, List.mem_cons, List.not_mem_nil, or_false] at hlv
      rcases hlv with rfl | rfl <;> simp only [List.mem_cons, List.not_mem_nil, or_false] at hr
      · rcases hr with rfl | rfl <;> norm_num
      · rcases hr with rfl; norm_num
    · exfalso
      simp only [evaluation, List.mem_cons, List.not_mem_nil, or_false] at hlv
      rcases hlv with rfl | rfl <;> exact hlrx rfl

theorem hasRadii (E : ℝ) : Spec.HasRadii 1 none 1 evaluation E := fun _ _ =>
  ⟨fun _ => .ok (1 / 2), fun _ => .ok (1 / 2), radii _, ⟨1 / 2, by norm_num, rfl⟩, ⟨1 / 2, by norm_num, rfl⟩, 1 / 2, rfl⟩

/-- The range, for either formalism. -/
noncomputable def endfRange (multi : Bool) : Range :=
  ⟨1, 20, 1, if multi then 2 else 1, 1, none, if multi then .multiLevel evaluation else .singleLevel evaluation⟩

/-- It is accepted, and the cross sections are those of the ENDF manual. -/
theorem cross_sections (K : Constants) (lib : CoulombLibrary) (tables : InterpolationLibrary)
    (reactions : ReactionLibrary) (initialBreitWigner : Channel → Verif.BreitWigner.Cache)
    (initial : (g : SpinGroup) → MatrixCache g.channels.length) (multi : Bool) :
    ∃ R m R' ws, fromENDF K lib tables reactions initialBreitWigner initial 1 1 ("n".toList) ("X".toList)
        (endfRange multi) = .ok R ∧ R.call K lib 3 = .ok (m, R') ∧
      let k := neutronWaveNumber (waveConstant K.hbar 1) 10 3
      m (.inr ⟨"n".toList, "X".toList, .elastic⟩) = some (Real.pi / k ^ 2 * (ws.map fun w =>
        if multi then Spec.multiElastic 0 3 w.1 w.2 else Spec.singleElastic 0 3 w.1 w.2).sum) ∧
      Spec.IsBreitWigner K 1 3 ("n".toList) ("X".toList) none 1 multi evaluation ws (fun id => m (.inr id)) := by
  obtain ⟨R, h1, h2⟩ := C65_accepted (K := K) (lib := lib) (tables := tables) (reactions := reactions)
    (initialBreitWigner := initialBreitWigner) (initial := initial) (elementaryCharge := 1)
    (incident := "n".toList) (target := "X".toList) (range := endfRange multi) (multi := multi)
    ⟨rfl, rfl⟩ rfl .none physical
  obtain ⟨⟨m, R'⟩, hv⟩ := h2 3 (by norm_num) (hasRadii 3)
  obtain ⟨nro, ws, k1, k2, -⟩ := C65_cross_sections h1 (multi := multi) rfl (by unfold endfRange; simp [Spec.prescribedRadii])
    ⟨by norm_num [endfRange], by norm_num [endfRange]⟩ hv
  cases k1
  refine ⟨R, m, R', ws, h1, hv, ?_, k2⟩
  exact (C65_regular k2 (by simp [evaluation]) (by simp [evaluation, List.range_succ])
    (by simp [evaluation])).1

end BreitWignerExample

end Endf

end Verif
