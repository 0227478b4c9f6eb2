import Verif.Lemmas.ContinuityLegacy
import Verif.Props.BreitWignerAccepted

/-!
# Property C72 for Breit-Wigner ranges
-/

namespace Verif

open Filter Topology

variable {K : Constants} {lib : CoulombLibrary} {E₀ : ℝ}

/-- Reconstructors of systems of any type of spin group. -/
theorem legacy_reconstructor {G : Type} {channel : G → Channel}
    {step : ℝ → G → LegacyMap → Outcome (LegacyMap × G)} {s : LegacySystem G} {R R' : Reconstructor}
    (hcall : ∀ E, R.lower ≤ E ∧ E ≤ R.upper → ∀ m, (∃ R', R.call K lib E = .ok (m, R')) ↔
      ∃ m₁ s', s.evaluate K lib channel (step E) E (fun _ => none) = .ok (m₁, s') ∧ m = .ofLegacy m₁)
    (hl : s.lmax ≤ 4) (hg : ∀ g ∈ s.groups, ∃ b f, ContinuousGroup channel step g E₀ b f)
    (hr : ∀ g ∈ s.groups, Spec.ContinuousRadius (channel g).radii.phaseShift E₀)
    (hE : R.lower < E₀ ∧ E₀ < R.upper) {m : ReactionMap} (h : R.call K lib E₀ = .ok (m, R'))
    {ε : ℝ} (hε : 0 < ε) :
    ∃ δ > 0, ∀ E, |E - E₀| < δ → ∃ m' R', R.call K lib E = .ok (m', R') ∧
      ∀ id, Spec.Close ε (m' id) (m id) := by
  obtain ⟨m₀, s', h1, rfl⟩ := (hcall E₀ ⟨hE.1.le, hE.2.le⟩ m).mp ⟨R', h⟩
  obtain ⟨δ, hδ, h2⟩ := LegacySystem.system_close hl hg hr h1 hε
  refine ⟨min δ (min (E₀ - R.lower) (R.upper - E₀)), by
    refine lt_min hδ (lt_min ?_ ?_) <;> linarith [hE.1, hE.2], fun E hE' => ?_⟩
  obtain ⟨h3, h4⟩ := lt_min_iff.mp hE'
  obtain ⟨h5, h6⟩ := lt_min_iff.mp h4
  rw [abs_lt] at h5 h6
  obtain ⟨m', s₂, h7, h8⟩ := h2 E h3
  obtain ⟨R', h9⟩ := (hcall E ⟨by linarith [h5.1], by linarith [h6.2]⟩ _).mpr ⟨m', s₂, h7, rfl⟩
  refine ⟨_, R', h9, ?_⟩
  rintro (id | id)
  · trivial
  · exact h8 id

theorem legacy_call {G : Type} (x : Outcome (LegacyMap × LegacySystem G))
    (f : LegacySystem G → SystemVariant) (R : Reconstructor) (m : ReactionMap) :
    (∃ R', (do
      let (m, system) ← (do let (m, s) ← x; pure (ReactionMap.ofLegacy m, f s) : Outcome _)
      pure (m, { R with system := system })) = .ok (m, R')) ↔
      ∃ m₁ s', x = .ok (m₁, s') ∧ m = .ofLegacy m₁ := by
  cases x with
  | error e => simp [Bind.bind, Except.bind]
  | ok v =>
    obtain ⟨m₁, s₁⟩ := v
    simp only [Bind.bind, Except.bind, pure, Except.pure, Except.ok.injEq, Prod.mk.injEq]
    constructor
    · rintro ⟨R', rfl, -⟩
      exact ⟨m₁, s₁, ⟨rfl, rfl⟩, rfl⟩
    · rintro ⟨m, s, ⟨rfl, rfl⟩, rfl⟩
      exact ⟨_, rfl, rfl⟩

namespace Endf

variable {tables : InterpolationLibrary}
  {initialBreitWigner : Channel → Verif.BreitWigner.Cache} {neutronMass : ℝ} {incident target : Str}
  {reactions : ReactionLibrary} {initial : (g : SpinGroup) → MatrixCache g.channels.length}
  {elementaryCharge : ℝ} {range : Range} {p : BreitWigner}
  {nro : Option (ℝ → Outcome ℝ)} {naps : ℤ} {multi : Bool}

/-- The groups of a Breit-Wigner range. -/
theorem breitWigner_groups {s : LegacySystem Verif.BreitWigner.SpinGroup}
    (h : Spec.PhysicalBreitWigner neutronMass nro naps p)
    (hs : makeLegacyBreitWignerCompoundSystem K lib initialBreitWigner neutronMass incident target nro naps p
      = .ok s) :
    s.lmax ≤ 4 ∧ ∀ g ∈ s.groups, ∃ lv ∈ p.lValues, ∃ pair radii J,
      incidentPair neutronMass incident target lv.awri p.spin = .ok pair ∧
      makeChannelRadii p.ap nro naps lv.awri neutronMass = .ok radii ∧
      lv.resonances ≠ [] ∧ IsGroup K lib pair radii lv J g := by
  obtain ⟨gss, h1, h2⟩ := system_ok hs
  obtain ⟨c1, c2, c3⟩ := Verif.BreitWigner.C35_contents h1
  have hgroup : ∀ g ∈ gss.flatten, ∃ lv ∈ p.lValues, ∃ pair radii J,
      incidentPair neutronMass incident target lv.awri p.spin = .ok pair ∧
      makeChannelRadii p.ap nro naps lv.awri neutronMass = .ok radii ∧
      lv.resonances ≠ [] ∧ IsGroup K lib pair radii lv J g := by
    intro g hg
    obtain ⟨gs, hgs, hg⟩ := List.mem_flatten.mp hg
    obtain ⟨lv, hlv, pair, radii, k1, k2, k3⟩ := forall₂_mem_right h2 hgs
    obtain ⟨J, hJ, k4⟩ := forall₂_mem_right k3 hg
    refine ⟨lv, hlv, pair, radii, J, k1, k2, ?_, k4⟩
    intro h0
    rw [mem_sortUnique, h0] at hJ
    cases hJ
  refine ⟨?_, by rw [c1]; exact hgroup⟩
  obtain ⟨g, hg, hgl⟩ := c3
  obtain ⟨lv, hlv, pair, radii, J, k1, k2, k3, k4⟩ := hgroup g hg
  obtain ⟨-, -, -, -, -, u, -⟩ := group_channel k4
  rw [← hgl, u]
  exact (h.l lv hlv k3).2

/-- The widths of the resonances of a group are not negative. -/
theorem group_nonneg {pair : ParticlePair} {radii : ChannelRadii} {lv : BreitWignerLValue} {J : ℚ}
    {g : Verif.BreitWigner.SpinGroup} (hg : IsGroup K lib pair radii lv J g)
    (h : Spec.PhysicalBreitWigner neutronMass nro naps p) (hlv : lv ∈ p.lValues)
    (hne : lv.resonances ≠ [])
    (hpair : incidentPair neutronMass incident target lv.awri p.spin = .ok pair)
    (hradii : makeChannelRadii p.ap nro naps lv.awri neutronMass = .ok radii) :
    ∀ r ∈ g.resonances, r.Nonneg := by
  intro r hr
  have hA := h.awri lv hlv
  obtain ⟨channel, scattering, r1, r2⟩ := h.radii lv hlv
  obtain ⟨radii', q1, q2, q3, q4⟩ := radii_of_isRadii (mul_pos hA h.mass).le r1
  obtain rfl := Except.ok.inj (q1.symm.trans hradii)
  rw [← q2] at r2
  obtain ⟨n, hn1, hn2, hc⟩ := hg.channel
  have hl : g.channel.numbers.l ≤ 4 := by
    rw [hc]
    exact hn1 ▸ (h.l lv hlv hne).2
  have ht : g.channel.type = .neutron := by rw [hc]; rfl
  have hrad : g.channel.radii = radii' := by rw [hc]; rfl
  obtain ⟨x, hx, hxr⟩ := forall₂_mem_right hg.resonances hr
  have hx := (List.mem_filter.mp hx).1
  obtain ⟨⟨P0, v1, v2⟩, ⟨Q0, v3, v4⟩, ⟨S0, v5⟩, v6⟩ := breitWignerResonance_ok hxr
  obtain ⟨x1, ⟨a1, ha1, x2⟩, x3⟩ := r2 x hx
  obtain ⟨w1, w2, w3, w4⟩ := h.widths lv hlv x hx
  have hP0 : 0 < P0 := by
    rw [neutron_penetrability_of (K := K) (lib := lib) (c := g.channel) (E := x.energy) (a := a1) ht hl
      (by rw [hrad]; exact x2)] at v1
    rw [← Except.ok.inj v1]
    apply hardSphere_pos
    have hk : g.channel.waveNumber K x.energy
        = Spec.neutronWaveNumber (Spec.waveConstant K.hbar neutronMass) lv.awri x.energy := by
      rw [hc]
      exact lChannel_waveNumber hpair radii' lv.l _
    rw [hk]
    exact mul_pos (waveNumber_pos K h.mass hA x1) ha1
  unfold Verif.BreitWigner.Made lAssigned Verif.BreitWigner.makeResonance at v6
  rw [value_ok v1, value_ok v3, value_ok v5] at v6
  dsimp only at v6
  split at v6
  · cases v6
  rw [← Except.ok.inj v6]
  exact ⟨div_nonneg w1 hP0.le, w3⟩

/-- C72 for Breit-Wigner ranges: a range that makes sense physically has cross sections at every energy inside
it, other than zero, around which its radii are continuous, and they are continuous there. -/
theorem C72_breit_wigner (ht : range.type = 1 ∧ range.representation = if multi then 2 else 1)
    (hp : range.parameters = if multi then .multiLevel p else .singleLevel p)
    (hr : Option.Rel (Spec.IsRadiusTable tables) range.scatteringRadius nro)
    (h : Spec.PhysicalBreitWigner neutronMass nro range.naps p) :
    ∃ R, fromENDF K lib tables reactions initialBreitWigner initial neutronMass elementaryCharge incident
        target range = .ok R ∧
      ∀ E₀, E₀ ≠ 0 → range.lower < E₀ ∧ E₀ < range.upper →
        Spec.BreitWignerRadiiAround neutronMass nro range.naps p E₀ →
        ∃ m R', R.call K lib E₀ = .ok (m, R') ∧ ∀ ε > 0, ∃ δ > 0, ∀ E, |E - E₀| < δ →
          ∃ m' R', R.call K lib E = .ok (m', R') ∧ ∀ id, Spec.Close ε (m' id) (m id) := by
  obtain ⟨R, hR, hcall⟩ := C65_accepted (K := K) (lib := lib) (tables := tables) (reactions := reactions)
    (initialBreitWigner := initialBreitWigner) (initial := initial) (elementaryCharge := elementaryCharge)
    (incident := incident) (target := target) ht hp hr h
  refine ⟨R, hR, fun E₀ h0 hE hrad => ?_⟩
  obtain ⟨⟨m, R'⟩, hm⟩ := hcall E₀ h0 (by
    intro lv hlv
    obtain ⟨channel, scattering, h1, h2, h3, h4, d, hd, h5⟩ := hrad lv hlv
    refine ⟨channel, scattering, h1, h3, ?_, _, h5.self_of_nhds⟩
    by_cases hq : lv.qx = 0
    · rw [hq, sub_zero]
      exact h3
    · exact (h4 hq).2)
  refine ⟨m, R', hm, fun ε hε => ?_⟩
  obtain ⟨k1, k2, -, nro', k3, k4⟩ := C47_dispatch hR
  rw [radiusTable_of hr] at k3
  obtain rfl := Except.ok.inj k3
  obtain ⟨s, hs, hev⟩ : ∃ s, makeLegacyBreitWignerCompoundSystem K lib initialBreitWigner
      neutronMass incident target nro range.naps p = .ok s ∧
      ∀ E, R.lower ≤ E ∧ E ≤ R.upper → ∀ m, (∃ R', R.call K lib E = .ok (m, R')) ↔
        ∃ m₁ s', s.evaluate K lib Verif.BreitWigner.SpinGroup.channel
          (Verif.BreitWigner.evaluate K lib E (formalism multi)) E (fun _ => none) = .ok (m₁, s') ∧
          m = .ofLegacy m₁ := by
    cases multi with
    | false =>
      simp only [Bool.false_eq_true, if_false] at hp
      rw [hp] at k4
      cases hs : R.system with
      | singleLevel s =>
        rw [hs] at k4
        refine ⟨s, k4, fun E hE m => ?_⟩
        unfold Reconstructor.call
        rw [if_pos (by exact hE), hs]
        unfold SystemVariant.evaluate
        exact legacy_call _ _ _ _
      | constant s => rw [hs] at k4; exact k4.elim
      | shiftFactor s => rw [hs] at k4; exact k4.elim
      | multiLevel s => rw [hs] at k4; exact k4.elim
      | unresolved s => rw [hs] at k4; exact k4.elim
    | true =>
      simp only [if_true] at hp
      rw [hp] at k4
      cases hs : R.system with
      | multiLevel s =>
        rw [hs] at k4
        refine ⟨s, k4, fun E hE m => ?_⟩
        unfold Reconstructor.call
        rw [if_pos (by exact hE), hs]
        unfold SystemVariant.evaluate
        exact legacy_call _ _ _ _
      | constant s => rw [hs] at k4; exact k4.elim
      | shiftFactor s => rw [hs] at k4; exact k4.elim
      | singleLevel s => rw [hs] at k4; exact k4.elim
      | unresolved s => rw [hs] at k4; exact k4.elim
  obtain ⟨hl, hgs⟩ := breitWigner_groups h hs
  have hgroups : ∀ g ∈ s.groups, Spec.ContinuousRadius g.channel.radii.phaseShift E₀ ∧
      ∃ b f, ContinuousGroup Verif.BreitWigner.SpinGroup.channel
        (fun E => Verif.BreitWigner.evaluate K lib E (formalism multi)) g E₀ b f := by
    intro g hg
    obtain ⟨lv, hlv, pair, radii, J, g1, g2, g3, g4⟩ := hgs g hg
    obtain ⟨channel, scattering, r1, r2, r3, r4, r5⟩ := hrad lv hlv
    obtain ⟨radii', q1, q2, q3, q4⟩ := radii_of_isRadii (mul_pos (h.awri lv hlv) h.mass).le r1
    obtain rfl := Except.ok.inj (q1.symm.trans g2)
    obtain ⟨n, -, -, hc⟩ := g4.channel
    have hrad' : g.channel.radii = radii' := by rw [hc]; rfl
    have hHas : Spec.HasRadii neutronMass nro range.naps p E₀ := by
      intro lv hlv
      obtain ⟨channel, scattering, h1, h2, h3, h4, d, hd, h5⟩ := hrad lv hlv
      refine ⟨channel, scattering, h1, h3, ?_, _, h5.self_of_nhds⟩
      by_cases hq : lv.qx = 0
      · rw [hq, sub_zero]
        exact h3
      · exact (h4 hq).2
    obtain ⟨P, Q, S, φ, hV⟩ := group_exists g4 h hlv g3 g1 g2 h0 hHas
    obtain ⟨v, hv⟩ : ∃ v, Verif.BreitWigner.evaluate K lib E₀ (formalism multi) g (fun _ => none) = .ok v := by
      cases multi with
      | false => exact ⟨_, Verif.BreitWigner.evaluateSLBW_of hV _⟩
      | true => exact ⟨_, Verif.BreitWigner.evaluateMLBW_of hV _⟩
    rw [hrad', q4]
    refine ⟨r5, Verif.BreitWigner.group_continuous (by rw [hc]; rfl) (by rw [hrad', q2]; exact r2)
      (by rw [hrad', q3]; exact r2) (by rw [hrad', q4]; exact r5) (by rw [hrad', q2]; exact r3) ?_
      (group_nonneg g4 h hlv g3 g1 g2) hv⟩
    rw [g4.qx, hrad', q2]
    exact fun hq => (r4 hq).1
  exact legacy_reconstructor hev hl (fun g hg => (hgroups g hg).2) (fun g hg => (hgroups g hg).1)
    (by rw [k1, k2]; exact hE) hm hε

open BreitWignerExample in
/-- C72 applies to the example of C65 at energy 3, for both formalisms. -/
example (K : Constants) (lib : CoulombLibrary) (tables : InterpolationLibrary) (reactions : ReactionLibrary)
    (initialBreitWigner : Channel → Verif.BreitWigner.Cache)
    (initial : (g : SpinGroup) → MatrixCache g.channels.length) (multi : Bool) :
    ∃ R m R', fromENDF K lib tables reactions initialBreitWigner initial 1 1 "n".toList "X".toList
        (endfRange multi) = .ok R ∧ R.call K lib 3 = .ok (m, R') ∧ ∀ ε > 0, ∃ δ > 0, ∀ E, |E - 3| < δ →
      ∃ m' R', R.call K lib E = .ok (m', R') ∧ ∀ id, Spec.Close ε (m' id) (m id) := by
  obtain ⟨R, h1, h2⟩ := C72_breit_wigner (K := K) (lib := lib) (tables := tables) (reactions := reactions)
    (initialBreitWigner := initialBreitWigner) (initial := initial) (elementaryCharge := 1)
    (incident := "n".toList) (target := "X".toList) (range := endfRange multi) (multi := multi)
    ⟨rfl, rfl⟩ rfl .none physical
  have around : ∀ E, Spec.ContinuousRadius (fun _ => .ok (1 / 2)) E := fun E =>
    ⟨fun _ => 1 / 2, continuousAt_const, Eventually.of_forall fun _ => rfl⟩
  obtain ⟨m, R', h3, h4⟩ := h2 3 (by norm_num) ⟨by norm_num [endfRange], by norm_num [endfRange]⟩
    (fun lv _ => ⟨_, _, radii _, around _, ⟨1 / 2, by norm_num, rfl⟩,
      fun _ => ⟨around _, 1 / 2, by norm_num, rfl⟩, around _⟩)
  exact ⟨R, m, R', h1, h3, h4⟩

end Endf

end Verif
