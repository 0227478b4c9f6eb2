import Verif.Lemmas.Distant
import Verif.Props.Perturbation

/-!
# Property C86: distant and weak resonances have little effect
-/

namespace Verif

open Complex Matrix

variable {option : BoundaryOption} {K : Constants} {lib : CoulombLibrary} {E : ℝ}

theorem controls_more : Controls option K lib E (Spec.MoreResonances E) where
  mono := by
    rintro δ δ' hle channels a b ⟨more, h1, h2, h3⟩
    exact ⟨more, h1, h2, h3.trans_le hle⟩
  near hev ids _ hε := contribution_more hev ids hε

/-- C86 for a spin group: if it can be evaluated at an energy then, for every tolerance, all spin groups with
the same channels, its resonances and any number of further ones of sufficiently small total strength there can
be evaluated there, and report the same reactions with cross sections within the tolerance. -/
theorem C86_spin_group {g : SpinGroup} (hg : g.Built) {cache cache' : MatrixCache g.channels.length}
    {start m : CrossSectionMap} (h : g.evaluate option K lib E cache start = .ok (m, cache'))
    {ε : ℝ} (hε : 0 < ε) :
    ∃ δ > 0, ∀ g' : SpinGroup, g'.Built → g'.channels = g.channels →
      Spec.MoreResonances E δ g.channels g.table.resonances g'.table.resonances →
      ∀ cache, ∃ m' cache', g'.evaluate option K lib E cache start = .ok (m', cache') ∧
        ∀ id, Spec.Close ε (m' id) (m id) := by
  obtain ⟨δ, hδ, hnear⟩ := group_near controls_more hg h (half_pos hε)
  refine ⟨δ, hδ, fun g' hg' hch hrs cache => ?_⟩
  obtain ⟨m', c', e, hcl⟩ := hnear g' hg' hch hrs cache start
  refine ⟨m', c', e, fun id => ?_⟩
  rw [← add_halves ε]
  refine hcl _ (half_pos hε) (fun id => ?_) id
  cases start id <;> simp [Spec.Close, hε]

/-- C86 for a compound system: further resonances of small total strength in each of its spin groups. -/
theorem C86_system {s s' : CompoundSystem} (hg : ∀ st ∈ s, st.group.Built) {start m : CrossSectionMap}
    (h : CompoundSystem.evaluate option K lib E s start = .ok (m, s')) {ε : ℝ} (hε : 0 < ε) :
    ∃ δ > 0, ∀ s₁ : CompoundSystem, List.Forall₂ (fun st st₁ => st₁.group.Built ∧
        st₁.group.channels = st.group.channels ∧
        Spec.MoreResonances E δ st.group.channels st.group.table.resonances
          st₁.group.table.resonances) s s₁ →
      ∃ m' s₂, CompoundSystem.evaluate option K lib E s₁ start = .ok (m', s₂) ∧
        ∀ id, Spec.Close ε (m' id) (m id) := by
  obtain ⟨δ, hδ, hnear⟩ := system_near controls_more hg h (half_pos hε)
  refine ⟨δ, hδ, fun s₁ hs₁ => ?_⟩
  obtain ⟨m', c', e, hcl⟩ := hnear s₁ hs₁ start
  refine ⟨m', c', e, fun id => ?_⟩
  rw [← add_halves ε]
  refine hcl _ (half_pos hε) (fun id => ?_) id
  cases start id <;> simp [Spec.Close, hε]

/-- The spin groups with further resonances exist: the constructor accepts the same channels with them. -/
theorem C86_accepted {g : SpinGroup} (hg : g.Built) (rs : List Resonance) :
    ∃ g', makeSpinGroup g.channels ⟨g.table.channels, rs⟩ = .ok g' ∧ g'.Built ∧
      g'.channels = g.channels ∧ g'.table.resonances = rs := by
  have hcons := (C24_accepted _ _).mp ⟨g, hg⟩
  obtain ⟨g', hg'⟩ := (C24_accepted g.channels ⟨g.table.channels, rs⟩).mpr
    ⟨hcons.nonempty, hcons.sameIncident, hcons.uniqueIDs, hcons.sameJpi, hcons.hasIncident, hcons.sameTable⟩
  obtain ⟨h1, h2, h3⟩ := SpinGroup.Built.of_make hg'
  exact ⟨g', hg', h1, h2, by rw [h3]⟩

theorem distance_le (E e elim : ℝ) : |e - E| ≤ ‖(e : ℂ) - E - I * (elim : ℂ) ^ 2‖ := by
  have h := Complex.abs_re_le_norm ((e : ℂ) - E - I * (elim : ℂ) ^ 2)
  have : ((e : ℂ) - E - I * (elim : ℂ) ^ 2).re = e - E := by
    rw [← Complex.ofReal_pow, Complex.sub_re, Complex.sub_re, Complex.ofReal_re, Complex.ofReal_re,
      Complex.re_mul_ofReal, Complex.I_re, zero_mul, sub_zero]
  rwa [this] at h

/-- C86 for one further resonance with given widths: it has little effect if its energy is far away, on either
side. -/
theorem C86_distant {g : SpinGroup} (hg : g.Built) {cache cache' : MatrixCache g.channels.length}
    {start m : CrossSectionMap} (h : g.evaluate option K lib E cache start = .ok (m, cache'))
    {ε : ℝ} (hε : 0 < ε) (widths : List ℝ) (hw : widths.length = g.channels.length) (eliminated : ℝ) :
    ∃ R > 0, ∀ e, R < |e - E| → ∀ g' : SpinGroup, g'.Built → g'.channels = g.channels →
      g'.table.resonances.Perm (⟨e, widths, eliminated⟩ :: g.table.resonances) →
      ∀ cache, ∃ m' cache', g'.evaluate option K lib E cache start = .ok (m', cache') ∧
        ∀ id, Spec.Close ε (m' id) (m id) := by
  obtain ⟨δ, hδ, hnear⟩ := C86_spin_group hg h hε
  have hs : 0 ≤ (widths.map (· ^ 2)).sum := by
    refine List.sum_nonneg fun y hy => ?_
    obtain ⟨z, -, rfl⟩ := List.mem_map.mp hy
    positivity
  refine ⟨(widths.map (· ^ 2)).sum / δ + 1, by positivity, fun e he g' hg' hch hperm => ?_⟩
  have hR : 0 ≤ (widths.map (· ^ 2)).sum / δ := by positivity
  have hd := he.trans_le (distance_le E e eliminated)
  refine hnear g' hg' hch ⟨[⟨e, widths, eliminated⟩], hperm.trans (List.perm_append_singleton _ _).symm, ?_, ?_⟩
  · intro r hr
    obtain rfl := List.mem_singleton.mp hr
    refine ⟨hw, fun h0 => ?_⟩
    have h1 : e = E := h0.1
    rw [h1, sub_self, abs_zero] at he
    linarith
  · simp only [List.map_cons, List.map_nil, List.sum_cons, List.sum_nil, add_zero, Spec.strength]
    rw [div_lt_iff₀ (by linarith)]
    have : (widths.map (· ^ 2)).sum = δ * ((widths.map (· ^ 2)).sum / δ) := by field_simp
    nlinarith

/-- C86 for one further resonance at another energy: it has little effect if its widths are small. -/
theorem C86_weak {g : SpinGroup} (hg : g.Built) {cache cache' : MatrixCache g.channels.length}
    {start m : CrossSectionMap} (h : g.evaluate option K lib E cache start = .ok (m, cache'))
    {ε : ℝ} (hε : 0 < ε) {e : ℝ} (he : e ≠ E) :
    ∃ γ > 0, ∀ widths : List ℝ, widths.length = g.channels.length → (∀ x ∈ widths, |x| < γ) →
      ∀ eliminated, ∀ g' : SpinGroup, g'.Built → g'.channels = g.channels →
      g'.table.resonances.Perm (⟨e, widths, eliminated⟩ :: g.table.resonances) →
      ∀ cache, ∃ m' cache', g'.evaluate option K lib E cache start = .ok (m', cache') ∧
        ∀ id, Spec.Close ε (m' id) (m id) := by
  obtain ⟨δ, hδ, hnear⟩ := C86_spin_group hg h hε
  have hpos : 0 < |e - E| := abs_pos.mpr (sub_ne_zero.mpr he)
  have hn : (0 : ℝ) < g.channels.length + 1 := by positivity
  set q : ℝ := δ * |e - E| / (g.channels.length + 1) with hq
  have hq0 : 0 < q := by positivity
  refine ⟨Real.sqrt q, Real.sqrt_pos.mpr hq0, fun widths hw hsmall eliminated g' hg' hch hperm => ?_⟩
  have hd := distance_le E e eliminated
  refine hnear g' hg' hch ⟨[⟨e, widths, eliminated⟩], hperm.trans (List.perm_append_singleton _ _).symm, ?_, ?_⟩
  · intro r hr
    obtain rfl := List.mem_singleton.mp hr
    exact ⟨hw, fun h0 => he h0.1⟩
  · simp only [List.map_cons, List.map_nil, List.sum_cons, List.sum_nil, add_zero, Spec.strength]
    rw [div_lt_iff₀ (by linarith)]
    have hsum : (widths.map (· ^ 2)).sum ≤ (widths.map (· ^ 2)).length • q := by
      refine List.sum_le_card_nsmul _ _ fun x hx => ?_
      obtain ⟨y, hy, rfl⟩ := List.mem_map.mp hx
      have h1 := hsmall y hy
      rw [← sq_abs, ← Real.sq_sqrt hq0.le]
      exact pow_le_pow_left₀ (abs_nonneg _) h1.le 2
    rw [List.length_map, hw, nsmul_eq_mul] at hsum
    have e1 : (g.channels.length + 1 : ℝ) * q = δ * |e - E| := by rw [hq]; field_simp
    nlinarith

/-- A third resonance for the spin group of the example, at distance `1000` and with widths `1/10`: its strength
is below `1/10000`. -/
example : Spec.MoreResonances 2 (1 / 10000) Example.group.channels Example.group.table.resonances
    (⟨1002, [1 / 10, 1 / 10, 1 / 10], 1 / 10⟩ :: Example.group.table.resonances) := by
  refine ⟨[⟨1002, [1 / 10, 1 / 10, 1 / 10], 1 / 10⟩], (List.perm_append_singleton _ _).symm, ?_, ?_⟩
  · intro r hr
    obtain rfl := List.mem_singleton.mp hr
    exact ⟨rfl, by norm_num⟩
  · simp only [List.map_cons, List.map_nil, List.sum_cons, List.sum_nil, add_zero, Spec.strength]
    have := distance_le 2 1002 (1 / 10)
    rw [show |(1002 : ℝ) - 2| = 1000 by norm_num] at this
    rw [div_lt_iff₀ (by linarith)]
    norm_num at this ⊢
    linarith

/-- The spin group of the example can be evaluated. -/
example (option : BoundaryOption) (lib : CoulombLibrary) (cache : MatrixCache Example.group.channels.length) :
    ∃ m cache', Example.group.evaluate option Example.constants lib 2 cache (fun _ => none)
      = .ok (m, cache') := by
  obtain ⟨⟨m, cache'⟩, h⟩ := (Example.evaluates option lib cache (fun _ => none) (fun _ => none)).1
  exact ⟨m, cache', h⟩

end Verif
