import Verif.Lemmas.LegacyUnitarity

/-!
# C101: the optical theorem and the limits of unitarity in Breit-Wigner formalisms

A group is evaluated at an energy with penetrability `p` (`q` for the competitive channel), shift factor
`s` and phase shift `φ`. What a group adds to a cross section is the difference `gain` of its values after
and before the evaluation of the group. The hard-sphere term `π/k² g 4 sin²φ` of the group is not added
with the group but once for each orbital momentum (C54); it is added by hand here.
-/

namespace Verif.BreitWigner

open Complex

/-- The widths given for a resonance and the penetrabilities at its energy are not negative. -/
def NonnegParameters (x : Spec.Parameters) : Prop :=
  0 ≤ x.elastic ∧ 0 ≤ x.capture ∧ 0 ≤ x.fission ∧ 0 ≤ x.competition ∧ 0 ≤ x.penetrability ∧
    0 ≤ x.competitivePenetrability

/-- The term of the competitive reaction in the single-level formula. -/
noncomputable def competitionTerm (x : Spec.Parameters) (E p q s : ℝ) : ℝ :=
  x.neutronWidth p * (x.competition * q / x.competitivePenetrability) / x.denominator E p q s

/-- What is added to a cross section. -/
noncomputable def gain (m m' : LegacyMap) (id : LegacyID) : ℝ := (m' id).getD 0 - (m id).getD 0

/-- The resonances of a group at one energy. -/
noncomputable def levelsOf (xs : List Spec.Parameters) (p q s : ℝ) : List Spec.Level :=
  xs.map fun x => ⟨x.neutronWidth p, x.totalWidth p q, x.position s⟩

/-- `π/k² g`. -/
noncomputable def unit (K : Constants) (g : SpinGroup) (E : ℝ) : ℝ :=
  Real.pi / g.channel.waveNumber K E ^ 2 * g.channel.spinFactor

/-- The penetrabilities, shift factor and phase shift of a group at an energy. -/
def At (K : Constants) (lib : CoulombLibrary) (g : SpinGroup) (E p q s φ : ℝ) : Prop :=
  g.channel.penetrability K lib E = .ok p ∧
    (if g.qx = 0 then q = p else g.channel.penetrability K lib (E - g.qx) = .ok q) ∧
    g.channel.shiftFactor K lib E = .ok s ∧ g.channel.phaseShift K lib E = .ok φ

variable {K : Constants} {lib : CoulombLibrary} {E : ℝ}

theorem At.unique {g : SpinGroup} {p q s φ p' q' s' φ' : ℝ} (h : At K lib g E p q s φ)
    (h' : At K lib g E p' q' s' φ') : p = p' ∧ q = q' ∧ s = s' ∧ φ = φ' := by
  obtain ⟨a1, a2, a3, a4⟩ := h
  obtain ⟨b1, b2, b3, b4⟩ := h'
  have h1 := Except.ok.inj (a1.symm.trans b1)
  refine ⟨h1, ?_, Except.ok.inj (a3.symm.trans b3), Except.ok.inj (a4.symm.trans b4)⟩
  by_cases hq : g.qx = 0
  · rw [if_pos hq] at a2 b2
    rw [a2, b2, h1]
  · rw [if_neg hq] at a2 b2
    exact Except.ok.inj (a2.symm.trans b2)

/-- What the single-level formula adds. -/
theorem single_gains {g g' : SpinGroup} {xs : List Spec.Parameters} {m m' : LegacyMap}
    {p q s φ : ℝ} (hmade : List.Forall₂ Made xs g.resonances) (hat : At K lib g E p q s φ)
    (h : evaluate K lib E .singleLevel g m = .ok (m', g')) :
    gain m m' (legacyID g.channel .elastic)
        = unit K g E * (xs.map fun x => x.elasticTerm E p q s φ).sum ∧
      gain m m' (legacyID g.channel .capture)
        = unit K g E * (xs.map fun x => x.captureTerm E p q s).sum ∧
      gain m m' (legacyID g.channel .fission)
        = unit K g E * (xs.map fun x => x.fissionTerm E p q s).sum := by
  obtain ⟨p', q', s', φ', a1, a2, a3, a4, h1, h2, h3, -⟩ := C57_single_level hmade h
  obtain ⟨rfl, rfl, rfl, rfl⟩ := hat.unique ⟨a1, a2, a3, a4⟩
  unfold gain unit
  refine ⟨?_, ?_, ?_⟩
  · rw [h1, Option.getD_some]; ring
  · rw [h2, Option.getD_some]; ring
  · rw [h3]
    split_ifs with h0
    · rw [h0]; ring
    · rw [Option.getD_some]; ring

/-- Capture and fission are those of the single-level formula under both formalisms. -/
theorem reaction_gains {f : Formalism} {g g' : SpinGroup} {xs : List Spec.Parameters} {m m' : LegacyMap}
    {p q s φ : ℝ} (hmade : List.Forall₂ Made xs g.resonances) (hat : At K lib g E p q s φ)
    (h : evaluate K lib E f g m = .ok (m', g')) :
    gain m m' (legacyID g.channel .capture)
        = unit K g E * (xs.map fun x => x.captureTerm E p q s).sum ∧
      gain m m' (legacyID g.channel .fission)
        = unit K g E * (xs.map fun x => x.fissionTerm E p q s).sum := by
  cases f with
  | singleLevel => exact (single_gains hmade hat h).2
  | multiLevel =>
    obtain ⟨m1, h1, hid⟩ := C57_multi_level h
    have := (single_gains hmade hat h1).2
    unfold gain at *
    rw [hid _ (fun h => absurd (legacyID_inj h) (by decide)),
      hid _ (fun h => absurd (legacyID_inj h) (by decide))]
    exact this

theorem multi_gain {g g' : SpinGroup} {xs : List Spec.Parameters} {m m' : LegacyMap}
    {p q s φ : ℝ} (hmade : List.Forall₂ Made xs g.resonances) (hat : At K lib g E p q s φ)
    (h : evaluate K lib E .multiLevel g m = .ok (m', g')) :
    gain m m' (legacyID g.channel .elastic) + unit K g E * (4 * Real.sin φ ^ 2)
      = unit K g E * normSq (1 - Spec.levelCollision φ E (levelsOf xs p q s)) := by
  obtain ⟨p', q', s', φ', a1, a2, a3, a4, h1⟩ := C57_multi_level_elastic hmade h
  obtain ⟨rfl, rfl, rfl, rfl⟩ := hat.unique ⟨a1, a2, a3, a4⟩
  unfold gain unit levelsOf
  rw [h1, Option.getD_some]
  ring

/-- Every evaluation has its penetrabilities, shift factor and phase shift. -/
theorem at_exists {f : Formalism} {g g' : SpinGroup} {m m' : LegacyMap}
    (h : evaluate K lib E f g m = .ok (m', g')) : ∃ p q s φ, At K lib g E p q s φ := by
  obtain ⟨p, q, s, φ, hV, -⟩ := evaluate_values h
  obtain ⟨p', q', s', φ', e1, e2, e3, e4, -⟩ := hV.isCollision
  exact ⟨p', q', s', φ', e1, e2, e3, e4⟩

theorem re_collision (xs : List Spec.Parameters) (p q s φ : ℝ) :
    2 * (1 - (Spec.levelCollision φ E (levelsOf xs p q s)).re)
      = 4 * Real.sin φ ^ 2 + (xs.map fun x => x.elasticTerm E p q s φ).sum
        + (xs.map fun x => x.captureTerm E p q s).sum + (xs.map fun x => x.fissionTerm E p q s).sum
        + (xs.map fun x => competitionTerm x E p q s).sum := by
  have hs : Real.sin φ ^ 2 = (1 - Real.cos (2 * φ)) / 2 := by
    rw [Real.cos_two_mul, ← Real.sin_sq_add_cos_sq φ]; ring
  induction xs with
  | nil =>
    simp only [levelsOf, Spec.levelCollision, Spec.levelSum, List.map_nil, List.sum_nil, mul_zero, add_zero,
      mul_one]
    rw [exp_two, hs]
    simp only [sub_re, ofReal_re, mul_re, ofReal_im, I_re, I_im]
    ring
  | cons x xs ih =>
    have hre := re_term φ (x.neutronWidth p) (x.position s - E) (x.totalWidth p q)
    have hU : Spec.levelCollision φ E (levelsOf (x :: xs) p q s)
        = exp (-(2 * I * φ)) * (I * ((x.neutronWidth p : ℂ)
            / (((x.position s - E : ℝ) : ℂ) - I * x.totalWidth p q / 2)))
          + Spec.levelCollision φ E (levelsOf xs p q s) := by
      simp only [levelsOf, Spec.levelCollision, Spec.levelSum, List.map_cons, List.sum_cons]
      push_cast
      ring
    rw [hU, add_re, hre]
    simp only [List.map_cons, List.sum_cons]
    have hterm : -2 * (x.neutronWidth p * ((x.position s - E) * Real.sin (2 * φ)
          - x.totalWidth p q / 2 * Real.cos (2 * φ)) / ((x.position s - E) ^ 2 + x.totalWidth p q ^ 2 / 4))
        = x.elasticTerm E p q s φ + x.captureTerm E p q s + x.fissionTerm E p q s
          + competitionTerm x E p q s := by
      unfold Spec.Parameters.elasticTerm Spec.Parameters.captureTerm Spec.Parameters.fissionTerm
        competitionTerm
      have hD : (x.position s - E) ^ 2 + x.totalWidth p q ^ 2 / 4 = x.denominator E p q s := by
        unfold Spec.Parameters.denominator; ring
      rw [hD, hs, ← add_div, ← add_div, ← add_div, mul_div_assoc']
      congr 1
      have ht : x.totalWidth p q = x.neutronWidth p + x.capture + x.fission
        + x.competition * q / x.competitivePenetrability := rfl
      generalize x.competition * q / x.competitivePenetrability = c at *
      rw [ht]
      ring
    linarith

/-- C101: under the single-level formalism the optical theorem holds, whatever the resonances are: elastic
scattering with the hard-sphere term, capture, fission and the competitive reaction (which is not reported)
add up to `2π/k² g (1 - Re U)` for the collision function of all resonances of the group. -/
theorem C101_single_level_optical {g g' : SpinGroup} {xs : List Spec.Parameters} {m m' : LegacyMap}
    (hmade : List.Forall₂ Made xs g.resonances)
    (h : evaluate K lib E .singleLevel g m = .ok (m', g')) :
    ∃ p q s φ, At K lib g E p q s φ ∧
      gain m m' (legacyID g.channel .elastic) + unit K g E * (4 * Real.sin φ ^ 2)
          + gain m m' (legacyID g.channel .capture) + gain m m' (legacyID g.channel .fission)
          + unit K g E * (xs.map fun x => competitionTerm x E p q s).sum
        = 2 * unit K g E * (1 - (Spec.levelCollision φ E (levelsOf xs p q s)).re) := by
  obtain ⟨p, q, s, φ, hat⟩ := at_exists h
  obtain ⟨h1, h2, h3⟩ := single_gains hmade hat h
  refine ⟨p, q, s, φ, hat, ?_⟩
  rw [h1, h2, h3, mul_comm 2, mul_assoc, re_collision]
  ring

theorem widths_nonneg {x : Spec.Parameters} (hx : NonnegParameters x) {p q : ℝ} (hp : 0 ≤ p)
    (hq : 0 ≤ q) : 0 ≤ x.neutronWidth p ∧ 0 ≤ x.competition * q / x.competitivePenetrability ∧
      x.neutronWidth p + x.capture + x.fission ≤ x.totalWidth p q := by
  obtain ⟨h1, h2, h3, h4, h5, h6⟩ := hx
  have a : 0 ≤ x.competition * q / x.competitivePenetrability := by positivity
  refine ⟨div_nonneg (mul_nonneg h1 hp) h5, a, ?_⟩
  unfold Spec.Parameters.totalWidth
  linarith

theorem terms_le {x : Spec.Parameters} (hx : NonnegParameters x) {p q : ℝ} (hp : 0 ≤ p)
    (hq : 0 ≤ q) (s : ℝ) : x.captureTerm E p q s + x.fissionTerm E p q s
      + competitionTerm x E p q s ≤ 1 := by
  obtain ⟨h1, h2, h3⟩ := widths_nonneg hx hp hq
  obtain ⟨-, h4, h5, -⟩ := hx
  unfold Spec.Parameters.captureTerm Spec.Parameters.fissionTerm competitionTerm
  rw [← add_div, ← add_div, ← mul_add, ← mul_add]
  refine div_le_one_of_le₀ ?_ (by unfold Spec.Parameters.denominator; positivity)
  unfold Spec.Parameters.denominator
  have ht : x.totalWidth p q = x.neutronWidth p + (x.capture + x.fission
      + x.competition * q / x.competitivePenetrability) := by
    unfold Spec.Parameters.totalWidth; ring
  generalize x.capture + x.fission + x.competition * q / x.competitivePenetrability = c at *
  rw [ht]
  nlinarith [sq_nonneg (x.neutronWidth p - c), sq_nonneg (E - x.position s)]

theorem at_nonneg {g : SpinGroup} {p q s φ : ℝ} (hn : g.channel.type = .neutron)
    (hR : ∀ e R, g.channel.radii.penetrability e = .ok R → 0 ≤ R) (h : At K lib g E p q s φ) :
    0 ≤ p ∧ 0 ≤ q := by
  obtain ⟨h1, h2, -⟩ := h
  have hp := penetrability_nonneg hn (hR E) h1
  refine ⟨hp, ?_⟩
  by_cases hq : g.qx = 0
  · rw [if_pos hq] at h2; rw [h2]; exact hp
  · rw [if_neg hq] at h2; exact penetrability_nonneg hn (hR _) h2

theorem unit_nonneg {g : SpinGroup} (hg : 0 ≤ g.channel.spinFactor) : 0 ≤ unit K g E := by
  have h1 : (0 : ℝ) ≤ g.channel.spinFactor := by exact_mod_cast hg
  have := Real.pi_pos
  unfold unit
  positivity

theorem competition_nonneg {x : Spec.Parameters} (hx : NonnegParameters x) {p q : ℝ} (hp : 0 ≤ p)
    (hq : 0 ≤ q) (s : ℝ) : 0 ≤ competitionTerm x E p q s := by
  obtain ⟨h1, h2, -⟩ := widths_nonneg hx hp hq
  unfold competitionTerm Spec.Parameters.denominator
  positivity

/-- C101: under both formalisms a group with `n` resonances adds at most `n π/k² g` to capture and fission
together. -/
theorem C101_reactions_upper {f : Formalism} {g g' : SpinGroup} {xs : List Spec.Parameters}
    {m m' : LegacyMap} (hn : g.channel.type = .neutron)
    (hR : ∀ e R, g.channel.radii.penetrability e = .ok R → 0 ≤ R) (hg : 0 ≤ g.channel.spinFactor)
    (hmade : List.Forall₂ Made xs g.resonances) (hx : ∀ x ∈ xs, NonnegParameters x)
    (h : evaluate K lib E f g m = .ok (m', g')) :
    gain m m' (legacyID g.channel .capture) + gain m m' (legacyID g.channel .fission)
      ≤ g.resonances.length * unit K g E := by
  obtain ⟨p, q, s, φ, hat⟩ := at_exists h
  obtain ⟨h2, h3⟩ := reaction_gains hmade hat h
  obtain ⟨hp, hq⟩ := at_nonneg hn hR hat
  rw [h2, h3, ← mul_add, mul_comm, ← hmade.length_eq]
  refine mul_le_mul_of_nonneg_right ?_ (unit_nonneg hg)
  clear h h2 h3 hmade
  induction xs with
  | nil => simp
  | cons x xs ih =>
    have h1 := ih fun y hy => hx y (List.mem_cons_of_mem _ hy)
    have h2 := terms_le (E := E) (hx x List.mem_cons_self) hp hq s
    have h3 := competition_nonneg (E := E) (hx x List.mem_cons_self) hp hq s
    simp only [List.map_cons, List.sum_cons, List.length_cons, Nat.cast_add, Nat.cast_one]
    linarith

/-- C101: the collision function of a group with one resonance is at most one in magnitude. -/
theorem C101_one_resonance_unitary {x : Spec.Parameters} (hx : NonnegParameters x) {p q s φ : ℝ}
    (hp : 0 ≤ p) (hq : 0 ≤ q) : normSq (Spec.levelCollision φ E (levelsOf [x] p q s)) ≤ 1 := by
  obtain ⟨h1, h2, h3⟩ := widths_nonneg hx hp hq
  obtain ⟨-, h4, h5, -⟩ := hx
  have e : Spec.levelCollision φ E (levelsOf [x] p q s) = exp (-(2 * I * φ)) * (1 + I *
      ((x.neutronWidth p : ℂ) / (((x.position s - E : ℝ) : ℂ) - I * x.totalWidth p q / 2))) := by
    simp [levelsOf, Spec.levelCollision, Spec.levelSum]
  rw [e, normSq_mul, normSq_eq_norm_sq, norm_exp_two, level_term, one_pow, one_mul]
  generalize x.neutronWidth p = w at *
  generalize x.totalWidth p q = t at *
  generalize x.position s - E = d
  have hwt : w ≤ t := by linarith
  rw [show (1 : ℂ) + I * (((w * d / (d ^ 2 + t ^ 2 / 4) : ℝ) : ℂ)
      + ((w * t / 2 / (d ^ 2 + t ^ 2 / 4) : ℝ) : ℂ) * I)
      = ((1 - w * t / 2 / (d ^ 2 + t ^ 2 / 4) : ℝ) : ℂ)
        + ((w * d / (d ^ 2 + t ^ 2 / 4) : ℝ) : ℂ) * I by
    push_cast
    linear_combination ((w : ℂ) * t / 2 / (d ^ 2 + t ^ 2 / 4)) * I_sq, normSq_add_mul_I]
  by_cases h0 : d ^ 2 + t ^ 2 / 4 = 0
  · rw [h0]; simp
  · have hpos : 0 < d ^ 2 + t ^ 2 / 4 := lt_of_le_of_ne (by positivity) (Ne.symm h0)
    have key : (1 - w * t / 2 / (d ^ 2 + t ^ 2 / 4)) ^ 2 + (w * d / (d ^ 2 + t ^ 2 / 4)) ^ 2
        = 1 - w * (t - w) / (d ^ 2 + t ^ 2 / 4) := by
      generalize hD : d ^ 2 + t ^ 2 / 4 = D at *
      have hd : d ^ 2 = D - t ^ 2 / 4 := by linarith
      field_simp
      rw [hd]
      ring
    rw [key]
    have : 0 ≤ w * (t - w) / (d ^ 2 + t ^ 2 / 4) :=
      div_nonneg (mul_nonneg h1 (by linarith)) hpos.le
    linarith

theorem length_one {α β : Type*} {R : α → β → Prop} {a : List α} {b : List β}
    (h : List.Forall₂ R a b) (hb : b.length = 1) : ∃ x, a = [x] := by
  rw [← h.length_eq] at hb
  exact List.length_eq_one_iff.mp hb

/-- C101: a group with one resonance stays within the limits of unitarity under both formalisms: everything
it adds, with the hard-sphere term, is at most `4π/k² g`. -/
theorem C101_one_resonance {f : Formalism} {g g' : SpinGroup} {xs : List Spec.Parameters}
    {m m' : LegacyMap} (hn : g.channel.type = .neutron)
    (hR : ∀ e R, g.channel.radii.penetrability e = .ok R → 0 ≤ R) (hg : 0 ≤ g.channel.spinFactor)
    (hmade : List.Forall₂ Made xs g.resonances) (hx : ∀ x ∈ xs, NonnegParameters x)
    (hone : g.resonances.length = 1) (h : evaluate K lib E f g m = .ok (m', g')) :
    ∃ φ, g.channel.phaseShift K lib E = .ok φ ∧
      0 ≤ gain m m' (legacyID g.channel .elastic) + unit K g E * (4 * Real.sin φ ^ 2) ∧
      gain m m' (legacyID g.channel .elastic) + unit K g E * (4 * Real.sin φ ^ 2)
        + gain m m' (legacyID g.channel .capture) + gain m m' (legacyID g.channel .fission)
        ≤ 4 * unit K g E := by
  have hS : evaluate K lib E .singleLevel g m = .ok (m', g') := by
    cases f with
    | singleLevel => exact h
    | multiLevel => rw [← C34_one_resonance g hone.le]; exact h
  have hM : evaluate K lib E .multiLevel g m = .ok (m', g') := by
    rw [C34_one_resonance g hone.le]; exact hS
  obtain ⟨p, q, s, φ, hat, ho⟩ := C101_single_level_optical hmade hS
  have he := multi_gain hmade hat hM
  obtain ⟨hp, hq⟩ := at_nonneg hn hR hat
  have hu := unit_nonneg (K := K) (E := E) hg
  obtain ⟨x, rfl⟩ := length_one hmade hone
  have hx' := hx x (List.mem_singleton.mpr rfl)
  have hU := C101_one_resonance_unitary (E := E) (s := s) (φ := φ) hx' hp hq
  have hc := competition_nonneg (E := E) hx' hp hq s
  refine ⟨φ, hat.2.2.2, ?_, ?_⟩
  · rw [he]; exact mul_nonneg hu (normSq_nonneg _)
  · simp only [List.map_cons, List.map_nil, List.sum_cons, List.sum_nil, add_zero] at ho
    have h1 : -1 ≤ (Spec.levelCollision φ E (levelsOf [x] p q s)).re := by
      rw [normSq_apply] at hU
      nlinarith [mul_self_nonneg (Spec.levelCollision φ E (levelsOf [x] p q s)).im,
        mul_self_nonneg ((Spec.levelCollision φ E (levelsOf [x] p q s)).re + 1)]
    have h2 : 0 ≤ unit K g E * competitionTerm x E p q s := mul_nonneg hu hc
    nlinarith [mul_nonneg hu (by linarith : 0 ≤ 1 + (Spec.levelCollision φ E (levelsOf [x] p q s)).re)]

theorem norm_levelSum {xs : List Spec.Parameters} (hx : ∀ x ∈ xs, NonnegParameters x) {p q : ℝ}
    (hp : 0 ≤ p) (hq : 0 ≤ q) (s : ℝ) :
    ‖Spec.levelSum E (levelsOf xs p q s)‖ ≤ 2 * xs.length := by
  induction xs with
  | nil => simp [Spec.levelSum, levelsOf]
  | cons x xs ih =>
    obtain ⟨h1, h2, h3⟩ := widths_nonneg (hx x List.mem_cons_self) hp hq
    obtain ⟨-, h4, h5, -⟩ := hx x List.mem_cons_self
    have ht := norm_term (d := x.position s - E) h1 (by linarith : x.neutronWidth p ≤ x.totalWidth p q)
    have hi := ih fun y hy => hx y (List.mem_cons_of_mem _ hy)
    have e : Spec.levelSum E (levelsOf (x :: xs) p q s) = (x.neutronWidth p : ℂ)
        / (((x.position s - E : ℝ) : ℂ) - I * x.totalWidth p q / 2)
        + Spec.levelSum E (levelsOf xs p q s) := by
      simp [Spec.levelSum, levelsOf]
    rw [e]
    refine (norm_add_le _ _).trans ?_
    simp only [List.length_cons, Nat.cast_add, Nat.cast_one]
    linarith

/-- C101: under the multi-level formalism a group with `n` resonances has at most
`π/k² g (2 |sin φ| + 2 n)²` of elastic scattering, the hard-sphere term included. -/
theorem C101_multi_level_elastic_upper {g g' : SpinGroup} {xs : List Spec.Parameters}
    {m m' : LegacyMap} (hn : g.channel.type = .neutron)
    (hR : ∀ e R, g.channel.radii.penetrability e = .ok R → 0 ≤ R) (hg : 0 ≤ g.channel.spinFactor)
    (hmade : List.Forall₂ Made xs g.resonances) (hx : ∀ x ∈ xs, NonnegParameters x)
    (h : evaluate K lib E .multiLevel g m = .ok (m', g')) :
    ∃ φ, g.channel.phaseShift K lib E = .ok φ ∧
      gain m m' (legacyID g.channel .elastic) + unit K g E * (4 * Real.sin φ ^ 2)
        ≤ unit K g E * (2 * |Real.sin φ| + 2 * g.resonances.length) ^ 2 := by
  obtain ⟨p, q, s, φ, hat⟩ := at_exists h
  obtain ⟨hp, hq⟩ := at_nonneg hn hR hat
  refine ⟨φ, hat.2.2.2, ?_⟩
  rw [multi_gain hmade hat h]
  refine mul_le_mul_of_nonneg_left ?_ (unit_nonneg hg)
  rw [normSq_eq_norm_sq, ← hmade.length_eq]
  refine pow_le_pow_left₀ (norm_nonneg _) ?_ 2
  have e : 1 - Spec.levelCollision φ E (levelsOf xs p q s)
      = (1 - exp (-(2 * I * φ))) - exp (-(2 * I * φ)) * (I * Spec.levelSum E (levelsOf xs p q s)) := by
    unfold Spec.levelCollision; ring
  rw [e]
  refine (norm_sub_le _ _).trans (add_le_add ?_ ?_)
  · refine (sq_le_sq₀ (norm_nonneg _) (by positivity)).mp ?_
    rw [mul_pow, sq_abs, ← normSq_eq_norm_sq, exp_two, show (1 : ℂ) - (((Real.cos (2 * φ) : ℝ) : ℂ)
      - (Real.sin (2 * φ) : ℝ) * I) = ((1 - Real.cos (2 * φ) : ℝ) : ℂ) + (Real.sin (2 * φ) : ℝ) * I by
        push_cast; ring, normSq_add_mul_I]
    have h1 := Real.sin_sq_add_cos_sq (2 * φ)
    have h2 := Real.cos_two_mul φ
    have h3 := Real.sin_sq_add_cos_sq φ
    nlinarith
  · rw [norm_mul, norm_exp_two, one_mul, norm_mul, norm_I, one_mul]
    exact norm_levelSum hx hp hq s

/-! ## The bounds are attained, so that groups with several resonances exceed the limits of unitarity -/

namespace Example

/-- A resonance at energy 2 with equal neutron and capture widths. -/
noncomputable def half : Resonance := ⟨2, 1, 1, 0, 0, 1, 0, none, 0⟩

/-- The parameters it is made from. -/
noncomputable def halfParameters : Spec.Parameters := ⟨2, 1, 1, 0, 0, 1, 1, 0⟩

/-- The parameters of a resonance at energy 2 with only a neutron width. -/
noncomputable def pureParameters : Spec.Parameters := ⟨2, 1, 0, 0, 0, 1, 1, 0⟩

theorem half_made : Made halfParameters half := by
  unfold Made makeResonance halfParameters half
  norm_num

theorem pure_made : Made pureParameters resonance := resonance_made

theorem half_nonneg : NonnegParameters halfParameters := by
  norm_num [NonnegParameters, halfParameters]

theorem pure_nonneg : NonnegParameters pureParameters := by
  norm_num [NonnegParameters, pureParameters]

theorem replicate_made {x : Spec.Parameters} {r : Resonance} (h : Made x r) (n : ℕ) :
    List.Forall₂ Made (List.replicate n x) (List.replicate n r) := by
  induction n with
  | zero => exact .nil
  | succ n ih => exact .cons h ih

theorem at_of {g : SpinGroup} {p q s φ : ℝ} (h : Values Verif.Example.constants lib g 2 p q s φ)
    (hq : g.qx = 0) : At Verif.Example.constants lib g 2 p q s φ := by
  refine ⟨h.penetrability, ?_, h.shiftFactor, h.phaseShift⟩
  rw [if_pos hq]
  have := h.competition
  unfold SpinGroup.competitionPenetrability at this
  rw [if_neg (by simpa using hq)] at this
  exact (Except.ok.inj this).symm

theorem unit_eq (phase : ℝ) (rs : List Resonance) :
    unit Verif.Example.constants (sGroup phase rs) 2 = Real.pi := by
  unfold unit
  rw [show (sGroup phase rs).channel = channel 0 (1 / 2) phase from rfl, waveNumber, spinFactor]
  norm_num [statisticalSpinFactor]

end Example

/-- C101: the bound on capture and fission is attained for every number of resonances. -/
theorem C101_reactions_attained (lib : CoulombLibrary) (f : Formalism) (n : ℕ) (m : LegacyMap) :
    ∃ m' g', evaluate Verif.Example.constants lib 2 f
        (Example.sGroup 1 (List.replicate n Example.half)) m = .ok (m', g') ∧
      gain m m' (legacyID (Example.sGroup 1 (List.replicate n Example.half)).channel .capture)
        = n * unit Verif.Example.constants (Example.sGroup 1 (List.replicate n Example.half)) 2 := by
  have hV := Example.sValues lib 1 (List.replicate n Example.half) (by
    intro r hr
    rw [List.eq_of_mem_replicate hr]
    norm_num [Example.half])
  have hmade : List.Forall₂ Made (List.replicate n Example.halfParameters)
    (Example.sGroup 1 (List.replicate n Example.half)).resonances := Example.replicate_made Example.half_made n
  have hat := Example.at_of hV rfl
  have key : ∀ v, evaluate Verif.Example.constants lib 2 f
      (Example.sGroup 1 (List.replicate n Example.half)) m = .ok v → ∃ m' g', evaluate Verif.Example.constants lib 2 f
        (Example.sGroup 1 (List.replicate n Example.half)) m = .ok (m', g') ∧
      gain m m' (legacyID (Example.sGroup 1 (List.replicate n Example.half)).channel .capture)
        = n * unit Verif.Example.constants (Example.sGroup 1 (List.replicate n Example.half)) 2 := by
    rintro ⟨m', g'⟩ h
    refine ⟨m', g', h, ?_⟩
    rw [(reaction_gains hmade hat h).1, List.map_replicate, List.sum_replicate, nsmul_eq_mul]
    norm_num [Spec.Parameters.captureTerm, Example.halfParameters, Spec.Parameters.denominator,
      Spec.Parameters.neutronWidth, Spec.Parameters.totalWidth, Spec.Parameters.position]
    ring
  cases f with
  | singleLevel => exact key _ (evaluateSLBW_of hV m)
  | multiLevel => exact key _ (evaluateMLBW_of hV m)

/-- C101: the bound on elastic scattering under the multi-level formalism is attained for every number of
resonances. -/
theorem C101_multi_level_elastic_attained (lib : CoulombLibrary) (n : ℕ) (m : LegacyMap) :
    ∃ m' g', evaluate Verif.Example.constants lib 2 .multiLevel
        (Example.sGroup 0 (List.replicate n Example.resonance)) m = .ok (m', g') ∧
      gain m m' (legacyID (Example.sGroup 0 (List.replicate n Example.resonance)).channel .elastic)
        = unit Verif.Example.constants (Example.sGroup 0 (List.replicate n Example.resonance)) 2
          * (2 * n) ^ 2 := by
  have hV := Example.sValues lib 0 (List.replicate n Example.resonance) (by
    intro r hr
    rw [List.eq_of_mem_replicate hr]
    norm_num [Example.resonance])
  have hmade : List.Forall₂ Made (List.replicate n Example.pureParameters)
      (Example.sGroup 0 (List.replicate n Example.resonance)).resonances :=
    Example.replicate_made Example.pure_made n
  have hat := Example.at_of hV rfl
  have h := evaluateMLBW_of hV m
  refine ⟨_, _, h, ?_⟩
  have hg := multi_gain hmade hat h
  rw [Real.sin_zero] at hg
  have hU : Spec.levelCollision 0 2 (levelsOf (List.replicate n Example.pureParameters) 1 1 0)
      = ((1 - 2 * n : ℝ) : ℂ) := by
    unfold Spec.levelCollision Spec.levelSum levelsOf
    rw [List.map_replicate, List.map_replicate, List.sum_replicate, nsmul_eq_mul]
    have : ((Example.pureParameters.neutronWidth 1 : ℝ) : ℂ) / ((Example.pureParameters.position 0 : ℂ)
        - (2 : ℝ) - I * (Example.pureParameters.totalWidth 1 1 : ℝ) / 2) = 2 * I := by
      norm_num [Example.pureParameters, Spec.Parameters.neutronWidth, Spec.Parameters.totalWidth,
        Spec.Parameters.position]
    rw [this]
    simp only [ofReal_zero, mul_zero, neg_zero, exp_zero, one_mul]
    push_cast
    linear_combination (2 * (n : ℂ)) * I_sq
  rw [hU] at hg
  have hn : normSq (1 - ((1 - 2 * n : ℝ) : ℂ)) = (2 * n) ^ 2 := by
    rw [show (1 : ℂ) - ((1 - 2 * n : ℝ) : ℂ) = ((2 * n : ℝ) : ℂ) by push_cast; ring, normSq_ofReal]
    ring
  rw [hn] at hg
  linarith

/-- C101: two resonances are enough to exceed the limits of unitarity: `π/k² g` for capture under both
formalisms, and `4π/k² g` for elastic scattering under the multi-level formalism. -/
theorem C101_two_resonances_exceed (lib : CoulombLibrary) :
    (∀ f, ∃ g m' g' xs, List.Forall₂ Made xs g.resonances ∧ (∀ x ∈ xs, NonnegParameters x) ∧
      g.resonances.length = 2 ∧
      evaluate Verif.Example.constants lib 2 f g (fun _ => none) = .ok (m', g') ∧
      unit Verif.Example.constants g 2 < gain (fun _ => none) m' (legacyID g.channel .capture)) ∧
    ∃ g m' g' xs, List.Forall₂ Made xs g.resonances ∧ (∀ x ∈ xs, NonnegParameters x) ∧
      g.resonances.length = 2 ∧
      evaluate Verif.Example.constants lib 2 .multiLevel g (fun _ => none) = .ok (m', g') ∧
      4 * unit Verif.Example.constants g 2 < gain (fun _ => none) m' (legacyID g.channel .elastic) := by
  constructor
  · intro f
    obtain ⟨m', g', h, hg⟩ := C101_reactions_attained lib f 2 (fun _ => none)
    refine ⟨_, m', g', List.replicate 2 Example.halfParameters,
      Example.replicate_made Example.half_made 2, fun x hx => ?_, rfl, h, ?_⟩
    · rw [List.eq_of_mem_replicate hx]; exact Example.half_nonneg
    · rw [hg, Example.unit_eq]
      have := Real.pi_pos
      push_cast
      linarith
  · obtain ⟨m', g', h, hg⟩ := C101_multi_level_elastic_attained lib 2 (fun _ => none)
    refine ⟨_, m', g', List.replicate 2 Example.pureParameters,
      Example.replicate_made Example.pure_made 2, fun x hx => ?_, rfl, h, ?_⟩
    · rw [List.eq_of_mem_replicate hx]; exact Example.pure_nonneg
    · rw [hg, Example.unit_eq]
      have := Real.pi_pos
      push_cast
      linarith

/-- A neutron channel with a radius that is not negative, and resonances with widths that are not negative,
as the bounds ask for. -/
example : (Example.sGroup 1 [Example.half]).channel.type = .neutron ∧
    (∀ e R, (Example.sGroup 1 [Example.half]).channel.radii.penetrability e = .ok R → 0 ≤ R) ∧
    0 ≤ (Example.sGroup 1 [Example.half]).channel.spinFactor ∧
    List.Forall₂ Made [Example.halfParameters] (Example.sGroup 1 [Example.half]).resonances := by
  refine ⟨rfl, ?_, ?_, .cons Example.half_made .nil⟩
  · intro e R h
    have : R = 1 := (Except.ok.inj h).symm
    rw [this]; exact zero_le_one
  · rw [show (Example.sGroup 1 [Example.half]).channel = Example.channel 0 (1 / 2) 1 from rfl,
      Example.spinFactor]
    norm_num [statisticalSpinFactor]

end Verif.BreitWigner
