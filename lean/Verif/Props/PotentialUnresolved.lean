import Verif.Props.PotentialScattering
import Verif.Props.Averages

/-!
# C104 for unresolved ranges
-/

namespace Verif.Endf

open Spec Averages

variable {K : Constants} {lib : CoulombLibrary} {tables : InterpolationLibrary} {reactions : ReactionLibrary}
  {initialBreitWigner : Channel → Verif.BreitWigner.Cache}
  {initial : (g : SpinGroup) → MatrixCache g.channels.length}
  {neutronMass elementaryCharge A E : ℝ} {incident target : Str} {range : Range} {R R' : Reconstructor}
  {m : ReactionMap} {nro : Option (ℝ → Outcome ℝ)}

theorem zipWith_sum_zero {gs : List AverageGroup} {rs : List Unresolved.Resonance}
    {f : AverageGroup → Unresolved.Resonance → ℝ} (h : List.Forall₂ (IsAverage E) gs rs)
    (hf : ∀ g ∈ gs, ∀ r, IsAverage E g r → f g r = 0) : (List.zipWith f gs rs).sum = 0 := by
  induction h with
  | nil => rfl
  | cons h1 _ ih =>
    rw [List.zipWith_cons_cons, List.sum_cons, hf _ List.mem_cons_self _ h1,
      ih fun g hg => hf g (List.mem_cons_of_mem _ hg), add_zero]

/-- C104, unresolved ranges: if all average neutron widths are zero, nothing is absorbed and elastic scattering
is that of a hard sphere with the scattering radius of the range, for all l up to the greatest one. -/
theorem C104_unresolved {d : AverageParameters}
    (hR : fromENDF K lib tables reactions initialBreitWigner initial neutronMass elementaryCharge incident
      target range = .ok R)
    (hd : averageParameters range.lower range.upper range.parameters = some d)
    (ht : Option.Rel (IsRadiusTable tables) range.scatteringRadius nro)
    (hA : ∀ awri ∈ d.awri, awri = A) (hc : Conforms .linLin tables.linLin)
    (hz : ∀ g ∈ d.groups, ∀ r ∈ g.rows, r.elastic = 0) {n : ℕ}
    (hn : ∀ g ∈ d.groups, g.l < n) (hn' : ∃ g ∈ d.groups, g.l + 1 = n)
    (hE : range.lower ≤ E ∧ E ≤ range.upper) {channel scattering : ℝ → Outcome ℝ} {radius : ℝ}
    (hr : IsRadii d.ap nro range.naps (A * neutronMass) channel scattering)
    (hrad : scattering E = .ok radius) (hm : R.call K lib E = .ok (m, R')) :
    m (.inr ⟨incident, target, .elastic⟩) = some (hardSphereScattering
      (neutronWaveNumber (waveConstant K.hbar neutronMass) A E)
      (neutronWaveNumber (waveConstant K.hbar neutronMass) A E * radius) n) ∧
    m (.inr ⟨incident, target, .capture⟩) = some 0 ∧
    (m (.inr ⟨incident, target, .fission⟩)).getD 0 = 0 := by
  have hpre : prescribedRadii range.scatteringRadius.isSome range.naps ≠ none := by
    obtain ⟨a, b, h, -⟩ := hr
    rw [rel_isSome ht, h]
    exact Option.some_ne_none _
  obtain ⟨n1, c1, c2, a, b, φ, lmax, rs, t1, i1, i2, i3, l1, ⟨g, l2, l3⟩, p1, f1, g1, -⟩ :=
    C67_cross_sections hR hd hA hc hpre hE hm
  obtain rfl := rel_unique ht t1
  rw [(isRadii_unique (e := E) i1 hr).2, hrad] at i3
  obtain rfl := Except.ok.inj i3
  obtain rfl : lmax + 1 = n := by
    obtain ⟨y, y1, y2⟩ := hn'
    have a1 := hn g l2
    have a2 := l1 y y1
    omega
  have hzero : ∀ g ∈ d.groups, ∀ r, IsAverage E g r → ∀ ρ, (g.widths ρ E r).elastic = 0 := by
    intro g hg r hr ρ
    have e : r.elastic = 0 := interpolates_const (fun z hz' => by
      obtain ⟨x, hx, rfl⟩ := List.mem_map.mp hz'
      exact hz g hg x hx) hr.elastic
    simp [AverageGroup.widths, e]
  refine ⟨?_, ?_, ?_⟩
  · have e := g1.elastic
    rw [e, zipWith_sum_zero f1 fun g hg r hr => by
      rw [AverageGroup.elasticTerm, hzero g hg r hr]; ring, mul_zero, add_zero]
    unfold hardSphereScattering
    rw [mul_div_assoc, mul_assoc, mul_left_comm, Finset.mul_sum]
    congr 2
    refine Finset.sum_congr rfl fun l hl' => ?_
    rw [← phase_sine (p1 l (by have := Finset.mem_range.mp hl'; omega))]
    ring
  · have e := g1.capture
    rw [e, zipWith_sum_zero f1 fun g hg r hr => by
      rw [AverageGroup.captureTerm, hzero g hg r hr]; ring, mul_zero]
  · have e := g1.fission
    rw [e, zipWith_sum_zero f1 fun g hg r hr => by
      rw [AverageGroup.fissionTerm, hzero g hg r hr]; ring, mul_zero]

namespace PotentialExample

open UnresolvedExample

/-- Constant average parameters for l = 1 without neutron width. -/
noncomputable def free : UnresolvedParameters UnresolvedConstantJ :=
  ⟨0, 1 / 2, [], [⟨1, 10, [⟨1 / 2, 1, 0, 1 / 20, 1 / 100, 1 / 10, ⟨1, 0, 2, 4⟩⟩]⟩]⟩

theorem free_physical : PhysicalAverages 1 10 (constantAverages free 1 100) := by
  refine ⟨one_pos, ?_, ?_, ?_, ?_, ?_, ?_, ?_⟩ <;> norm_num [free, constantAverages]

/-- C104 applies to this range at 20 eV. -/
example :
    let range : Range := ⟨1, 100, 2, 1, 1, none, .unresolvedConstant free⟩
    ∃ R m R', fromENDF K lib library reactions initialBreitWigner initial 1 1 "n".toList "X".toList
        range = .ok R ∧ R.call K lib 20 = .ok (m, R') ∧
      m (.inr ⟨"n".toList, "X".toList, .elastic⟩) = some (hardSphereScattering
        (neutronWaveNumber (waveConstant K.hbar 1) 10 20)
        (neutronWaveNumber (waveConstant K.hbar 1) 10 20 * (1 / 2)) 2) ∧
      m (.inr ⟨"n".toList, "X".toList, .capture⟩) = some 0 := by
  intro range
  have hd : averageParameters range.lower range.upper range.parameters
      = some (constantAverages free 1 100) := rfl
  obtain ⟨R, h1, h2⟩ := C67_accepted (K := K) (lib := lib) (reactions := reactions) (tables := library)
    (initialBreitWigner := initialBreitWigner) (initial := initial) (elementaryCharge := 1)
    (incident := "n".toList) (target := "X".toList) linear_makes linear_conforms (range := range) rfl hd .none
    free_physical (channel := fun _ => .ok (1 / 2)) (scattering := fun _ => .ok (1 / 2))
    (BreitWignerExample.radii _)
  obtain ⟨⟨m, R'⟩, h3⟩ := h2 20 (by norm_num) ⟨1 / 2, by norm_num, rfl⟩ ⟨1 / 2, rfl⟩ (by
    intro g hg
    simp only [constantAverages, free, List.flatMap_cons, List.flatMap_nil, List.map_cons, List.map_nil,
      List.append_nil, List.mem_singleton] at hg
    subst hg
    exact ⟨⟨_, List.mem_cons_self, by norm_num⟩, _, List.mem_cons_of_mem _ List.mem_cons_self, by norm_num⟩)
  obtain ⟨e1, e2, -⟩ := C104_unresolved (n := 2) (nro := none) h1 hd .none free_physical.awri.2 linear_conforms
    (by norm_num [constantAverages, free]) (by norm_num [constantAverages, free])
    (by norm_num [constantAverages, free]) ⟨by norm_num [range], by norm_num [range]⟩
    (channel := fun _ => .ok (1 / 2)) (scattering := fun _ => .ok (1 / 2)) (BreitWignerExample.radii _) rfl h3
  exact ⟨R, m, R', h1, h3, e1, e2⟩

end PotentialExample

end Verif.Endf
