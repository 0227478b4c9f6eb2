import Mathlib.Data.List.Perm.Basic
import Verif.Props.LegacyUnitarity

/-!
# C102: contributions of Breit-Wigner resonances add, except for the interference between levels

A spin group is divided into two groups of resonances with the same channel. What the whole group adds to
the cross sections (`gain`) is compared with what the two parts add when they are evaluated on their own.
-/

namespace Verif.BreitWigner

open Complex
open scoped ComplexConjugate

/-- The resonances of a group are divided among two groups for the same channel, in any order. -/
structure Divided (g g₁ g₂ : SpinGroup) : Prop where
  channel₁ : g₁.channel = g.channel
  channel₂ : g₂.channel = g.channel
  qx₁ : g₁.qx = g.qx
  qx₂ : g₂.qx = g.qx
  resonances : g.resonances.Perm (g₁.resonances ++ g₂.resonances)

variable {K : Constants} {lib : CoulombLibrary} {E : ℝ}

/-- The sum of `Γn / |E - E'|` over the resonances: how much they are felt at an energy away from all of
them. -/
noncomputable def influence (xs : List Spec.Parameters) (E p s : ℝ) : ℝ :=
  (xs.map fun x => x.neutronWidth p / |E - x.position s|).sum

/-! ## Lemmas -/

theorem evaluate_of_values {g : SpinGroup} {p q s φ : ℝ} (hV : Values K lib g E p q s φ) (f : Formalism)
    (m : LegacyMap) : ∃ m' g', evaluate K lib E f g m = .ok (m', g') := by
  cases f with
  | singleLevel => exact ⟨_, _, evaluateSLBW_of hV m⟩
  | multiLevel => exact ⟨_, _, evaluateMLBW_of hV m⟩

theorem Values.transfer {g g₁ : SpinGroup} {p q s φ : ℝ} (hV : Values K lib g E p q s φ)
    (hc : g₁.channel = g.channel) (hq : g₁.qx = g.qx)
    (hd : ∀ r ∈ g₁.resonances,
      (E - r.energyPrime s) * (E - r.energyPrime s) + 0.25 * r.totalAt p q * r.totalAt p q ≠ 0) :
    Values K lib g₁ E p q s φ := by
  obtain ⟨h1, h2, h3, h4, h5, -⟩ := hV
  refine ⟨by rw [hc]; exact h1, ?_, by rw [hc]; exact h3, by rw [hc]; exact h4, by rw [hc]; exact h5, hd⟩
  unfold SpinGroup.competitionPenetrability at h2 ⊢
  rw [hc, hq]
  exact h2

theorem At.transfer {g g₁ : SpinGroup} {p q s φ : ℝ} (h : At K lib g E p q s φ)
    (hc : g₁.channel = g.channel) (hq : g₁.qx = g.qx) : At K lib g₁ E p q s φ := by
  unfold At at h ⊢
  rw [hc, hq]
  exact h

theorem unit_congr {g g₁ : SpinGroup} (hc : g₁.channel = g.channel) : unit K g₁ E = unit K g E := by
  unfold unit
  rw [hc]

/-- The parameters of the whole group. -/
theorem Divided.made {g g₁ g₂ : SpinGroup} (hd : Divided g g₁ g₂) {xs₁ xs₂ : List Spec.Parameters}
    (h₁ : List.Forall₂ Made xs₁ g₁.resonances) (h₂ : List.Forall₂ Made xs₂ g₂.resonances) :
    ∃ xs, xs.Perm (xs₁ ++ xs₂) ∧ List.Forall₂ Made xs g.resonances := by
  obtain ⟨ys, hys, hp⟩ := List.perm_comp_forall₂ hd.resonances (List.rel_append h₁ h₂).flip
  exact ⟨ys, hp, hys.flip⟩

theorem sum_perm {xs xs₁ xs₂ : List Spec.Parameters} (h : xs.Perm (xs₁ ++ xs₂))
    (f : Spec.Parameters → ℝ) : (xs.map f).sum = (xs₁.map f).sum + (xs₂.map f).sum := by
  rw [(h.map f).sum_eq, List.map_append, List.sum_append]

theorem levelSum_perm {xs xs₁ xs₂ : List Spec.Parameters} (h : xs.Perm (xs₁ ++ xs₂)) (p q s : ℝ) :
    Spec.levelSum E (levelsOf xs p q s)
      = Spec.levelSum E (levelsOf xs₁ p q s) + Spec.levelSum E (levelsOf xs₂ p q s) := by
  unfold Spec.levelSum levelsOf
  rw [((h.map _).map _).sum_eq, List.map_append, List.map_append, List.sum_append]

theorem levelSum_cons (x : Spec.Parameters) (xs : List Spec.Parameters) (p q s : ℝ) :
    Spec.levelSum E (levelsOf (x :: xs) p q s) = (x.neutronWidth p : ℂ)
        / (((x.position s - E : ℝ) : ℂ) - I * x.totalWidth p q / 2)
        + Spec.levelSum E (levelsOf xs p q s) := by
  simp [Spec.levelSum, levelsOf]

theorem one_sub_exp (φ : ℝ) : ‖1 - exp (-(2 * I * φ))‖ = 2 * |Real.sin φ| := by
  refine (sq_eq_sq₀ (norm_nonneg _) (by positivity)).mp ?_
  rw [mul_pow, sq_abs, ← normSq_eq_norm_sq, exp_two, show (1 : ℂ) - (((Real.cos (2 * φ) : ℝ) : ℂ)
    - (Real.sin (2 * φ) : ℝ) * I) = ((1 - Real.cos (2 * φ) : ℝ) : ℂ) + (Real.sin (2 * φ) : ℝ) * I by
      push_cast; ring, normSq_add_mul_I]
  have h1 := Real.sin_sq_add_cos_sq (2 * φ)
  have h2 := Real.cos_two_mul φ
  have h3 := Real.sin_sq_add_cos_sq φ
  nlinarith

/-- `|1 - U|²` without the hard-sphere term. -/
theorem normSq_sub_hard (φ : ℝ) (S : ℂ) :
    normSq (1 - exp (-(2 * I * φ)) * (1 + I * S)) - 4 * Real.sin φ ^ 2
      = normSq S - 4 * Real.sin φ ^ 2 * S.im - 2 * Real.sin (2 * φ) * S.re := by
  have h := normSq_one_sub φ (-S.re) S.im
  rw [neg_neg, re_add_im] at h
  rw [h, normSq_apply]
  ring

theorem hard_bound (φ : ℝ) (S : ℂ) :
    |normSq (1 - exp (-(2 * I * φ)) * (1 + I * S)) - 4 * Real.sin φ ^ 2|
      ≤ 4 * |Real.sin φ| * ‖S‖ + ‖S‖ ^ 2 := by
  have e : 1 - exp (-(2 * I * φ)) * (1 + I * S)
      = (1 - exp (-(2 * I * φ))) - exp (-(2 * I * φ)) * (I * S) := by ring
  have hb : ‖exp (-(2 * I * φ)) * (I * S)‖ = ‖S‖ := by
    rw [norm_mul, norm_exp_two, one_mul, norm_mul, norm_I, one_mul]
  have ha := one_sub_exp φ
  have h4 : 4 * Real.sin φ ^ 2 = ‖1 - exp (-(2 * I * φ))‖ ^ 2 := by
    rw [ha, mul_pow, sq_abs]; norm_num
  rw [h4, e, normSq_eq_norm_sq]
  generalize 1 - exp (-(2 * I * φ)) = a at *
  generalize exp (-(2 * I * φ)) * (I * S) = b at *
  have h1 := norm_sub_le a b
  have h2 := abs_norm_sub_norm_le a b
  have h3 : ‖a‖ - ‖b‖ ≤ ‖a - b‖ := norm_sub_norm_le a b
  rw [show 4 * |Real.sin φ| = 2 * ‖a‖ by rw [ha]; ring, ← hb]
  have ha0 := norm_nonneg a
  have hb0 := norm_nonneg b
  have hab := norm_nonneg (a - b)
  have h5 : ‖a‖ - ‖a - b‖ ≤ ‖b‖ := by linarith
  rw [abs_le]
  constructor
  · nlinarith
  · nlinarith

/-- The single-level term of a resonance is what it adds when it is alone. -/
theorem elasticTerm_eq (x : Spec.Parameters) (p q s φ : ℝ) : x.elasticTerm E p q s φ
    = normSq (1 - exp (-(2 * I * φ)) * (1 + I * Spec.levelSum E (levelsOf [x] p q s)))
      - 4 * Real.sin φ ^ 2 := by
  rw [normSq_sub_hard, levelSum_cons, level_term]
  have h0 : Spec.levelSum E (levelsOf [] p q s) = 0 := by simp [Spec.levelSum, levelsOf]
  rw [h0, add_zero, normSq_add_mul_I]
  simp only [add_re, ofReal_re, mul_re, ofReal_im, I_re, I_im, add_im, mul_im]
  have hD : (x.position s - E) ^ 2 + x.totalWidth p q ^ 2 / 4 = x.denominator E p q s := by
    unfold Spec.Parameters.denominator; ring
  unfold Spec.Parameters.elasticTerm
  rw [hD]
  generalize x.neutronWidth p = w at *
  generalize x.totalWidth p q = t at *
  have hE : E - x.position s = -(x.position s - E) := by ring
  rw [hE]
  generalize x.position s - E = d at *
  generalize x.denominator E p q s = D at *
  by_cases hz : D = 0
  · rw [hz]; simp
  · have hd2 : d ^ 2 = D - t ^ 2 / 4 := by linarith
    have : (w * d / D) ^ 2 + (w * t / 2 / D) ^ 2 = w ^ 2 / D := by
      field_simp
      rw [hd2]
      ring
    rw [this]
    field_simp
    ring

theorem norm_levelSum_influence {xs : List Spec.Parameters} {p q s : ℝ}
    (hw : ∀ x ∈ xs, 0 ≤ x.neutronWidth p) (hE : ∀ x ∈ xs, E ≠ x.position s) :
    ‖Spec.levelSum E (levelsOf xs p q s)‖ ≤ influence xs E p s := by
  induction xs with
  | nil => simp [Spec.levelSum, levelsOf, influence]
  | cons x xs ih =>
    rw [levelSum_cons]
    refine (norm_add_le _ _).trans (add_le_add ?_ (ih (fun y hy => hw y (List.mem_cons_of_mem _ hy))
      fun y hy => hE y (List.mem_cons_of_mem _ hy)))
    have h1 := hw x List.mem_cons_self
    have h2 : 0 < |E - x.position s| := abs_pos.mpr (sub_ne_zero.mpr (hE x List.mem_cons_self))
    rw [norm_div, Complex.norm_of_nonneg h1]
    refine div_le_div_of_nonneg_left h1 h2 ?_
    have := Complex.abs_re_le_norm ((((x.position s - E : ℝ) : ℂ)) - I * x.totalWidth p q / 2)
    have e : ((((x.position s - E : ℝ) : ℂ)) - I * x.totalWidth p q / 2).re = x.position s - E := by
      rw [show (((x.position s - E : ℝ) : ℂ)) - I * x.totalWidth p q / 2
        = ((x.position s - E : ℝ) : ℂ) - ((x.totalWidth p q / 2 : ℝ) : ℂ) * I by push_cast; ring]
      simp
    rw [e, abs_sub_comm] at this
    exact this

theorem influence_nonneg {xs : List Spec.Parameters} {p s : ℝ}
    (hw : ∀ x ∈ xs, 0 ≤ x.neutronWidth p) : 0 ≤ influence xs E p s := by
  refine List.sum_nonneg fun y hy => ?_
  obtain ⟨x, hx, rfl⟩ := List.mem_map.mp hy
  exact div_nonneg (hw x hx) (abs_nonneg _)

/-! ## The properties -/

/-- C102: a group can be evaluated exactly when its parts can, from any states of the cross sections. -/
theorem C102_evaluated {f : Formalism} {g g₁ g₂ : SpinGroup} (hd : Divided g g₁ g₂) :
    (∃ m v, evaluate K lib E f g m = .ok v) ↔
      (∀ m, ∃ v, evaluate K lib E f g₁ m = .ok v) ∧ ∀ m, ∃ v, evaluate K lib E f g₂ m = .ok v := by
  constructor
  · rintro ⟨m, ⟨m', g'⟩, h⟩
    obtain ⟨p, q, s, φ, hV, -⟩ := evaluate_values h
    refine ⟨fun m₁ => ?_, fun m₂ => ?_⟩
    · obtain ⟨_, _, h1⟩ := evaluate_of_values (hV.transfer hd.channel₁ hd.qx₁ fun r hr =>
        hV.denominator r (hd.resonances.mem_iff.mpr (List.mem_append_left _ hr))) f m₁
      exact ⟨_, h1⟩
    · obtain ⟨_, _, h1⟩ := evaluate_of_values (hV.transfer hd.channel₂ hd.qx₂ fun r hr =>
        hV.denominator r (hd.resonances.mem_iff.mpr (List.mem_append_right _ hr))) f m₂
      exact ⟨_, h1⟩
  · rintro ⟨h₁, h₂⟩
    obtain ⟨⟨m₁, g₁'⟩, h₁⟩ := h₁ fun _ => none
    obtain ⟨⟨m₂, g₂'⟩, h₂⟩ := h₂ fun _ => none
    obtain ⟨p, q, s, φ, hV, -⟩ := evaluate_values h₁
    obtain ⟨p', q', s', φ', hV', -⟩ := evaluate_values h₂
    have e1 := hV.penetrability
    have e2 := hV'.penetrability
    rw [hd.channel₁] at e1
    rw [hd.channel₂] at e2
    obtain rfl := Except.ok.inj (e1.symm.trans e2)
    have e3 := hV.shiftFactor
    have e4 := hV'.shiftFactor
    rw [hd.channel₁] at e3
    rw [hd.channel₂] at e4
    obtain rfl := Except.ok.inj (e3.symm.trans e4)
    have e5 := hV.competition
    have e6 := hV'.competition
    unfold SpinGroup.competitionPenetrability at e5 e6
    rw [hd.channel₁, hd.qx₁] at e5
    rw [hd.channel₂, hd.qx₂] at e6
    obtain rfl := Except.ok.inj (e5.symm.trans e6)
    obtain ⟨m', g', h⟩ := evaluate_of_values (hV.transfer hd.channel₁.symm hd.qx₁.symm fun r hr => by
      rcases List.mem_append.mp (hd.resonances.mem_iff.mp hr) with h | h
      · exact hV.denominator r h
      · exact hV'.denominator r h) f (fun _ => none)
    exact ⟨_, _, h⟩

variable {f : Formalism} {g g' g₁ g₁' g₂ g₂' : SpinGroup} {xs₁ xs₂ : List Spec.Parameters}
  {m m' m₁ m₁' m₂ m₂' : LegacyMap}

/-- C102: under both formalisms capture and fission of the resonances add. -/
theorem C102_reactions (hd : Divided g g₁ g₂) (hx₁ : List.Forall₂ Made xs₁ g₁.resonances)
    (hx₂ : List.Forall₂ Made xs₂ g₂.resonances) (h : evaluate K lib E f g m = .ok (m', g'))
    (h₁ : evaluate K lib E f g₁ m₁ = .ok (m₁', g₁')) (h₂ : evaluate K lib E f g₂ m₂ = .ok (m₂', g₂')) :
    gain m m' (legacyID g.channel .capture) = gain m₁ m₁' (legacyID g.channel .capture)
        + gain m₂ m₂' (legacyID g.channel .capture) ∧
      gain m m' (legacyID g.channel .fission) = gain m₁ m₁' (legacyID g.channel .fission)
        + gain m₂ m₂' (legacyID g.channel .fission) := by
  obtain ⟨p, q, s, φ, hat⟩ := at_exists h
  obtain ⟨xs, hp, hx⟩ := hd.made hx₁ hx₂
  have a := reaction_gains hx hat h
  have b := reaction_gains hx₁ (hat.transfer hd.channel₁ hd.qx₁) h₁
  have c := reaction_gains hx₂ (hat.transfer hd.channel₂ hd.qx₂) h₂
  rw [hd.channel₁, unit_congr hd.channel₁] at b
  rw [hd.channel₂, unit_congr hd.channel₂] at c
  rw [a.1, a.2, b.1, b.2, c.1, c.2, sum_perm hp, sum_perm hp]
  constructor <;> ring

/-- C102: under the single-level formalism elastic scattering of the resonances adds as well. -/
theorem C102_single_level (hd : Divided g g₁ g₂) (hx₁ : List.Forall₂ Made xs₁ g₁.resonances)
    (hx₂ : List.Forall₂ Made xs₂ g₂.resonances) (h : evaluate K lib E .singleLevel g m = .ok (m', g'))
    (h₁ : evaluate K lib E .singleLevel g₁ m₁ = .ok (m₁', g₁'))
    (h₂ : evaluate K lib E .singleLevel g₂ m₂ = .ok (m₂', g₂')) :
    gain m m' (legacyID g.channel .elastic) = gain m₁ m₁' (legacyID g.channel .elastic)
        + gain m₂ m₂' (legacyID g.channel .elastic) := by
  obtain ⟨p, q, s, φ, hat⟩ := at_exists h
  obtain ⟨xs, hp, hx⟩ := hd.made hx₁ hx₂
  have a := (single_gains hx hat h).1
  have b := (single_gains hx₁ (hat.transfer hd.channel₁ hd.qx₁) h₁).1
  have c := (single_gains hx₂ (hat.transfer hd.channel₂ hd.qx₂) h₂).1
  rw [hd.channel₁, unit_congr hd.channel₁] at b
  rw [hd.channel₂, unit_congr hd.channel₂] at c
  rw [a, b, c, sum_perm hp]
  ring

theorem multi_gain' {xs : List Spec.Parameters} {p q s φ : ℝ}
    (hmade : List.Forall₂ Made xs g.resonances) (hat : At K lib g E p q s φ)
    (h : evaluate K lib E .multiLevel g m = .ok (m', g')) :
    gain m m' (legacyID g.channel .elastic) = unit K g E
      * (normSq (1 - exp (-(2 * I * φ)) * (1 + I * Spec.levelSum E (levelsOf xs p q s)))
        - 4 * Real.sin φ ^ 2) := by
  have := multi_gain hmade hat h
  unfold Spec.levelCollision at this
  linarith

/-- C102: under the multi-level formalism the elastic scattering of two sets of resonances interferes: the
interference is `2π/k² g Re(X₁ X₂*)` with the sums `X = Σ Γn / (E' - E - iΓ/2)` over the resonances of the two
sets, whatever the phase shift is. -/
theorem C102_multi_level (hd : Divided g g₁ g₂) (hx₁ : List.Forall₂ Made xs₁ g₁.resonances)
    (hx₂ : List.Forall₂ Made xs₂ g₂.resonances) (h : evaluate K lib E .multiLevel g m = .ok (m', g'))
    (h₁ : evaluate K lib E .multiLevel g₁ m₁ = .ok (m₁', g₁'))
    (h₂ : evaluate K lib E .multiLevel g₂ m₂ = .ok (m₂', g₂')) :
    ∃ p q s φ, At K lib g E p q s φ ∧
      gain m m' (legacyID g.channel .elastic) = gain m₁ m₁' (legacyID g.channel .elastic)
        + gain m₂ m₂' (legacyID g.channel .elastic)
        + 2 * unit K g E * (Spec.levelSum E (levelsOf xs₁ p q s)
            * conj (Spec.levelSum E (levelsOf xs₂ p q s))).re := by
  obtain ⟨p, q, s, φ, hat⟩ := at_exists h
  obtain ⟨xs, hp, hx⟩ := hd.made hx₁ hx₂
  have a := multi_gain' hx hat h
  have b := multi_gain' hx₁ (hat.transfer hd.channel₁ hd.qx₁) h₁
  have c := multi_gain' hx₂ (hat.transfer hd.channel₂ hd.qx₂) h₂
  rw [hd.channel₁, unit_congr hd.channel₁] at b
  rw [hd.channel₂, unit_congr hd.channel₂] at c
  refine ⟨p, q, s, φ, hat, ?_⟩
  rw [a, b, c, normSq_sub_hard, normSq_sub_hard, normSq_sub_hard, levelSum_perm hp, normSq_add, add_im,
    add_re]
  ring

theorem interference_pair (x y : Spec.Parameters) (p q s : ℝ) :
    (((x.neutronWidth p : ℂ) / (((x.position s - E : ℝ) : ℂ) - I * x.totalWidth p q / 2))
      * conj ((y.neutronWidth p : ℂ) / (((y.position s - E : ℝ) : ℂ) - I * y.totalWidth p q / 2))).re
      = x.neutronWidth p * y.neutronWidth p * ((E - x.position s) * (E - y.position s)
          + x.totalWidth p q * y.totalWidth p q / 4)
        / (x.denominator E p q s * y.denominator E p q s) := by
  rw [level_term, level_term]
  have hD : ∀ z : Spec.Parameters, (z.position s - E) ^ 2 + z.totalWidth p q ^ 2 / 4
      = z.denominator E p q s := by
    intro z; unfold Spec.Parameters.denominator; ring
  rw [hD, hD]
  simp only [map_add, map_mul, conj_ofReal, conj_I, mul_re, add_re, add_im, mul_im, ofReal_re, ofReal_im,
    I_re, I_im, neg_re, neg_im]
  rw [show x.neutronWidth p * y.neutronWidth p * ((E - x.position s) * (E - y.position s)
          + x.totalWidth p q * y.totalWidth p q / 4)
        / (x.denominator E p q s * y.denominator E p q s)
      = x.neutronWidth p * y.neutronWidth p * ((E - x.position s) * (E - y.position s)
          + x.totalWidth p q * y.totalWidth p q / 4)
        * ((x.denominator E p q s)⁻¹ * (y.denominator E p q s)⁻¹) by rw [div_eq_mul_inv, mul_inv]]
  ring

/-- C102: the interference of two resonances. -/
theorem C102_two_resonances {x y : Spec.Parameters} (hd : Divided g g₁ g₂)
    (hx₁ : List.Forall₂ Made [x] g₁.resonances) (hx₂ : List.Forall₂ Made [y] g₂.resonances)
    (h : evaluate K lib E .multiLevel g m = .ok (m', g'))
    (h₁ : evaluate K lib E .multiLevel g₁ m₁ = .ok (m₁', g₁'))
    (h₂ : evaluate K lib E .multiLevel g₂ m₂ = .ok (m₂', g₂')) :
    ∃ p q s φ, At K lib g E p q s φ ∧
      gain m m' (legacyID g.channel .elastic) = gain m₁ m₁' (legacyID g.channel .elastic)
        + gain m₂ m₂' (legacyID g.channel .elastic)
        + 2 * unit K g E * (x.neutronWidth p * y.neutronWidth p * ((E - x.position s) * (E - y.position s)
            + x.totalWidth p q * y.totalWidth p q / 4)
          / (x.denominator E p q s * y.denominator E p q s)) := by
  obtain ⟨p, q, s, φ, hat, e⟩ := C102_multi_level hd hx₁ hx₂ h h₁ h₂
  refine ⟨p, q, s, φ, hat, ?_⟩
  have h0 : Spec.levelSum E (levelsOf [] p q s) = 0 := by simp [Spec.levelSum, levelsOf]
  rw [e, levelSum_cons, levelSum_cons, h0, add_zero, add_zero, interference_pair]

theorem interference_nonneg {p q s : ℝ} (h : ∀ x ∈ xs₁, ∀ y ∈ xs₂,
      0 ≤ x.neutronWidth p ∧ 0 ≤ y.neutronWidth p ∧ 0 ≤ x.totalWidth p q ∧ 0 ≤ y.totalWidth p q ∧
      0 ≤ (E - x.position s) * (E - y.position s)) :
    0 ≤ (Spec.levelSum E (levelsOf xs₁ p q s) * conj (Spec.levelSum E (levelsOf xs₂ p q s))).re := by
  have h0 : Spec.levelSum E (levelsOf [] p q s) = 0 := by simp [Spec.levelSum, levelsOf]
  induction xs₁ with
  | nil => rw [h0]; simp
  | cons x xs₁ ih =>
    rw [levelSum_cons, add_mul, add_re]
    refine add_nonneg ?_ (ih fun z hz => h z (List.mem_cons_of_mem _ hz))
    have h' := h x List.mem_cons_self
    clear ih h
    induction xs₂ with
    | nil => rw [h0]; simp
    | cons y xs₂ ih2 =>
      rw [levelSum_cons, map_add, mul_add, add_re]
      refine add_nonneg ?_ (ih2 fun z hz => h' z (List.mem_cons_of_mem _ hz))
      obtain ⟨a, b, c, d, e⟩ := h' y List.mem_cons_self
      rw [interference_pair]
      unfold Spec.Parameters.denominator
      have := mul_nonneg a b
      have := mul_nonneg c d
      refine div_nonneg (mul_nonneg ‹_› (by linarith)) (by positivity)

/-- C102: when the energy lies on the same side of the resonances of both sets, they interfere
constructively. -/
theorem C102_constructive (hn : g.channel.type = .neutron)
    (hR : ∀ e R, g.channel.radii.penetrability e = .ok R → 0 ≤ R) (hg : 0 ≤ g.channel.spinFactor)
    (hd : Divided g g₁ g₂) (hx₁ : List.Forall₂ Made xs₁ g₁.resonances)
    (hx₂ : List.Forall₂ Made xs₂ g₂.resonances) (hp₁ : ∀ x ∈ xs₁, NonnegParameters x)
    (hp₂ : ∀ x ∈ xs₂, NonnegParameters x)
    (hside : ∀ s, g.channel.shiftFactor K lib E = .ok s → ∀ x ∈ xs₁, ∀ y ∈ xs₂,
      0 ≤ (E - x.position s) * (E - y.position s))
    (h : evaluate K lib E .multiLevel g m = .ok (m', g'))
    (h₁ : evaluate K lib E .multiLevel g₁ m₁ = .ok (m₁', g₁'))
    (h₂ : evaluate K lib E .multiLevel g₂ m₂ = .ok (m₂', g₂')) :
    gain m₁ m₁' (legacyID g.channel .elastic) + gain m₂ m₂' (legacyID g.channel .elastic)
      ≤ gain m m' (legacyID g.channel .elastic) := by
  obtain ⟨p, q, s, φ, hat, e⟩ := C102_multi_level hd hx₁ hx₂ h h₁ h₂
  obtain ⟨hp, hq⟩ := at_nonneg hn hR hat
  have hu := unit_nonneg (K := K) (E := E) hg
  have hi : 0 ≤ (Spec.levelSum E (levelsOf xs₁ p q s)
      * conj (Spec.levelSum E (levelsOf xs₂ p q s))).re := by
    refine interference_nonneg fun x hx y hy => ?_
    obtain ⟨a, b, c⟩ := widths_nonneg (hp₁ x hx) hp hq
    obtain ⟨a', b', c'⟩ := widths_nonneg (hp₂ y hy) hp hq
    obtain ⟨-, h3, h4, -⟩ := hp₁ x hx
    obtain ⟨-, h5, h6, -⟩ := hp₂ y hy
    exact ⟨a, a', by linarith, by linarith, hside s hat.2.2.1 x hx y hy⟩
  have := mul_nonneg hu hi
  rw [e]
  linarith

theorem neutronWidth_zero {x : Spec.Parameters} (h : x.elastic = 0) (p : ℝ) : x.neutronWidth p = 0 := by
  unfold Spec.Parameters.neutronWidth
  rw [h, zero_mul, zero_div]

theorem levelSum_zero {xs : List Spec.Parameters} (h : ∀ x ∈ xs, x.elastic = 0) (p q s : ℝ) :
    Spec.levelSum E (levelsOf xs p q s) = 0 := by
  induction xs with
  | nil => simp [Spec.levelSum, levelsOf]
  | cons x xs ih =>
    rw [levelSum_cons, ih fun y hy => h y (List.mem_cons_of_mem _ hy),
      neutronWidth_zero (h x List.mem_cons_self)]
    simp

theorem sum_zero {xs : List Spec.Parameters} {t : Spec.Parameters → ℝ} (h : ∀ x ∈ xs, t x = 0) :
    (xs.map t).sum = 0 := by
  refine List.sum_eq_zero fun y hy => ?_
  obtain ⟨x, hx, rfl⟩ := List.mem_map.mp hy
  exact h x hx

/-- C102: resonances without a neutron width change nothing, under both formalisms. -/
theorem C102_no_neutron_width (hd : Divided g g₁ g₂) (hx₁ : List.Forall₂ Made xs₁ g₁.resonances)
    (hx₂ : List.Forall₂ Made xs₂ g₂.resonances) (hzero : ∀ x ∈ xs₂, x.elastic = 0)
    (h : evaluate K lib E f g m = .ok (m', g')) (h₁ : evaluate K lib E f g₁ m₁ = .ok (m₁', g₁')) :
    gain m m' (legacyID g.channel .elastic) = gain m₁ m₁' (legacyID g.channel .elastic) ∧
      gain m m' (legacyID g.channel .capture) = gain m₁ m₁' (legacyID g.channel .capture) ∧
      gain m m' (legacyID g.channel .fission) = gain m₁ m₁' (legacyID g.channel .fission) := by
  obtain ⟨p, q, s, φ, hat⟩ := at_exists h
  obtain ⟨xs, hp, hx⟩ := hd.made hx₁ hx₂
  have hat₁ := hat.transfer hd.channel₁ hd.qx₁
  have a := reaction_gains hx hat h
  have b := reaction_gains hx₁ hat₁ h₁
  rw [hd.channel₁, unit_congr hd.channel₁] at b
  refine ⟨?_, ?_, ?_⟩
  · cases f with
    | singleLevel =>
      have a := (single_gains hx hat h).1
      have b := (single_gains hx₁ hat₁ h₁).1
      rw [hd.channel₁, unit_congr hd.channel₁] at b
      rw [a, b, sum_perm hp, sum_zero (xs := xs₂) fun x hx => ?_, add_zero]
      unfold Spec.Parameters.elasticTerm
      rw [neutronWidth_zero (hzero x hx)]
      simp
    | multiLevel =>
      have a := multi_gain' hx hat h
      have b := multi_gain' hx₁ hat₁ h₁
      rw [hd.channel₁, unit_congr hd.channel₁] at b
      rw [a, b, levelSum_perm hp, levelSum_zero hzero, add_zero]
  · rw [a.1, b.1, sum_perm hp, sum_zero (xs := xs₂) fun x hx => ?_, add_zero]
    unfold Spec.Parameters.captureTerm
    rw [neutronWidth_zero (hzero x hx)]
    simp
  · rw [a.2, b.2, sum_perm hp, sum_zero (xs := xs₂) fun x hx => ?_, add_zero]
    unfold Spec.Parameters.fissionTerm
    rw [neutronWidth_zero (hzero x hx)]
    simp

/-! ## Distant resonances -/

theorem abs_single {xs : List Spec.Parameters} {p q s : ℝ} (φ : ℝ)
    (hw : ∀ x ∈ xs, 0 ≤ x.neutronWidth p) (hE : ∀ x ∈ xs, E ≠ x.position s) :
    |(xs.map fun x => x.elasticTerm E p q s φ).sum|
      ≤ 4 * |Real.sin φ| * influence xs E p s + influence xs E p s ^ 2 := by
  induction xs with
  | nil => simp [influence]
  | cons x xs ih =>
    have h1 := ih (fun y hy => hw y (List.mem_cons_of_mem _ hy))
      fun y hy => hE y (List.mem_cons_of_mem _ hy)
    have h2 := hard_bound φ (Spec.levelSum E (levelsOf [x] p q s))
    rw [← elasticTerm_eq] at h2
    have h3 := norm_levelSum_influence (xs := [x]) (E := E) (q := q) (s := s)
      (fun y hy => by rw [List.mem_singleton.mp hy]; exact hw x List.mem_cons_self)
      (fun y hy => by rw [List.mem_singleton.mp hy]; exact hE x List.mem_cons_self)
    have h4 := influence_nonneg (E := E) (s := s) fun y hy => hw y (List.mem_cons_of_mem x hy)
    have h5 : influence (x :: xs) E p s = influence [x] E p s + influence xs E p s := by
      simp [influence]
    have h6 := norm_nonneg (Spec.levelSum E (levelsOf [x] p q s))
    have h7 := abs_nonneg (Real.sin φ)
    rw [List.map_cons, List.sum_cons, h5]
    generalize influence [x] E p s = u at *
    generalize influence xs E p s = v at *
    generalize ‖Spec.levelSum E (levelsOf [x] p q s)‖ = n at *
    have h8 : 4 * |Real.sin φ| * n ≤ 4 * |Real.sin φ| * u :=
      mul_le_mul_of_nonneg_left h3 (by positivity)
    have h9 : n ^ 2 ≤ u ^ 2 := pow_le_pow_left₀ h6 h3 2
    have h10 : 0 ≤ u * v := mul_nonneg (h6.trans h3) h4
    refine (abs_add_le _ _).trans ?_
    nlinarith

/-- C102: resonances that are distant or weak can be left out. With `X = Σ Γn / |E - E'|` over the resonances
that are left out, elastic scattering changes by at most `π/k² g (4 |sin φ| X + X² + 4 n X)`, where `n` is the
number of the other resonances, under both formalisms. -/
theorem C102_distant_elastic (hn : g.channel.type = .neutron)
    (hR : ∀ e R, g.channel.radii.penetrability e = .ok R → 0 ≤ R) (hg : 0 ≤ g.channel.spinFactor)
    (hd : Divided g g₁ g₂) (hx₁ : List.Forall₂ Made xs₁ g₁.resonances)
    (hx₂ : List.Forall₂ Made xs₂ g₂.resonances) (hp₁ : ∀ x ∈ xs₁, NonnegParameters x)
    (hp₂ : ∀ x ∈ xs₂, NonnegParameters x)
    (haway : ∀ s, g.channel.shiftFactor K lib E = .ok s → ∀ x ∈ xs₂, E ≠ x.position s)
    (h : evaluate K lib E f g m = .ok (m', g')) (h₁ : evaluate K lib E f g₁ m₁ = .ok (m₁', g₁')) :
    ∃ p q s φ, At K lib g E p q s φ ∧
      |gain m m' (legacyID g.channel .elastic) - gain m₁ m₁' (legacyID g.channel .elastic)|
        ≤ unit K g E * (4 * |Real.sin φ| * influence xs₂ E p s + influence xs₂ E p s ^ 2
          + 4 * g₁.resonances.length * influence xs₂ E p s) := by
  obtain ⟨p, q, s, φ, hat⟩ := at_exists h
  obtain ⟨xs, hp, hx⟩ := hd.made hx₁ hx₂
  have hat₁ := hat.transfer hd.channel₁ hd.qx₁
  obtain ⟨hp0, hq0⟩ := at_nonneg hn hR hat
  have hu := unit_nonneg (K := K) (E := E) hg
  have hw : ∀ x ∈ xs₂, 0 ≤ x.neutronWidth p := fun x hx => (widths_nonneg (hp₂ x hx) hp0 hq0).1
  have hE := haway s hat.2.2.1
  have hI := influence_nonneg (E := E) (s := s) hw
  refine ⟨p, q, s, φ, hat, ?_⟩
  cases f with
  | singleLevel =>
    have a := (single_gains hx hat h).1
    have b := (single_gains hx₁ hat₁ h₁).1
    rw [hd.channel₁, unit_congr hd.channel₁] at b
    rw [a, b, sum_perm hp, ← mul_sub, add_sub_cancel_left, abs_mul, abs_of_nonneg hu]
    refine mul_le_mul_of_nonneg_left ((abs_single φ hw hE).trans ?_) hu
    have : 0 ≤ 4 * (g₁.resonances.length : ℝ) * influence xs₂ E p s := by positivity
    linarith
  | multiLevel =>
    have a := multi_gain' hx hat h
    have b := multi_gain' hx₁ hat₁ h₁
    rw [hd.channel₁, unit_congr hd.channel₁] at b
    rw [a, b, ← mul_sub, abs_mul, abs_of_nonneg hu]
    refine mul_le_mul_of_nonneg_left ?_ hu
    have e : (normSq (1 - exp (-(2 * I * φ)) * (1 + I * Spec.levelSum E (levelsOf xs p q s)))
          - 4 * Real.sin φ ^ 2)
        - (normSq (1 - exp (-(2 * I * φ)) * (1 + I * Spec.levelSum E (levelsOf xs₁ p q s)))
          - 4 * Real.sin φ ^ 2)
        = (normSq (1 - exp (-(2 * I * φ)) * (1 + I * Spec.levelSum E (levelsOf xs₂ p q s)))
          - 4 * Real.sin φ ^ 2)
        + 2 * (Spec.levelSum E (levelsOf xs₁ p q s)
            * conj (Spec.levelSum E (levelsOf xs₂ p q s))).re := by
      rw [normSq_sub_hard, normSq_sub_hard, normSq_sub_hard, levelSum_perm hp, normSq_add, add_im, add_re]
      ring
    rw [e]
    have h1 := hard_bound φ (Spec.levelSum E (levelsOf xs₂ p q s))
    have h2 := norm_levelSum_influence (q := q) hw hE
    have h3 := norm_levelSum (E := E) hp₁ hp0 hq0 s
    have h4 : |(Spec.levelSum E (levelsOf xs₁ p q s)
        * conj (Spec.levelSum E (levelsOf xs₂ p q s))).re|
        ≤ ‖Spec.levelSum E (levelsOf xs₁ p q s)‖ * ‖Spec.levelSum E (levelsOf xs₂ p q s)‖ := by
      refine (Complex.abs_re_le_norm _).trans ?_
      rw [norm_mul, Complex.norm_conj]
    rw [← hx₁.length_eq]
    have h5 := norm_nonneg (Spec.levelSum E (levelsOf xs₂ p q s))
    have h7 := abs_nonneg (Real.sin φ)
    refine (abs_add_le _ _).trans ?_
    rw [abs_mul, abs_of_nonneg (by norm_num : (0 : ℝ) ≤ 2)]
    generalize ‖Spec.levelSum E (levelsOf xs₂ p q s)‖ = n at *
    generalize influence xs₂ E p s = v at *
    have h8 : 4 * |Real.sin φ| * n ≤ 4 * |Real.sin φ| * v :=
      mul_le_mul_of_nonneg_left h2 (by positivity)
    have h9 : n ^ 2 ≤ v ^ 2 := pow_le_pow_left₀ h5 h2 2
    have h10 : ‖Spec.levelSum E (levelsOf xs₁ p q s)‖ * n ≤ 2 * xs₁.length * v :=
      mul_le_mul h3 h2 h5 (by positivity)
    linarith

/-- C102: leaving out resonances never adds to capture and fission, and takes away at most
`π/k² g Σ Γn (Γγ + Γf) / (E - E')²`. -/
theorem C102_distant_reactions (hn : g.channel.type = .neutron)
    (hR : ∀ e R, g.channel.radii.penetrability e = .ok R → 0 ≤ R) (hg : 0 ≤ g.channel.spinFactor)
    (hd : Divided g g₁ g₂) (hx₁ : List.Forall₂ Made xs₁ g₁.resonances)
    (hx₂ : List.Forall₂ Made xs₂ g₂.resonances) (hp₂ : ∀ x ∈ xs₂, NonnegParameters x)
    (haway : ∀ s, g.channel.shiftFactor K lib E = .ok s → ∀ x ∈ xs₂, E ≠ x.position s)
    (h : evaluate K lib E f g m = .ok (m', g')) (h₁ : evaluate K lib E f g₁ m₁ = .ok (m₁', g₁')) :
    ∃ p q s φ, At K lib g E p q s φ ∧
      gain m₁ m₁' (legacyID g.channel .capture) ≤ gain m m' (legacyID g.channel .capture) ∧
      gain m₁ m₁' (legacyID g.channel .fission) ≤ gain m m' (legacyID g.channel .fission) ∧
      gain m m' (legacyID g.channel .capture) + gain m m' (legacyID g.channel .fission)
        ≤ gain m₁ m₁' (legacyID g.channel .capture) + gain m₁ m₁' (legacyID g.channel .fission)
          + unit K g E * (xs₂.map fun x =>
            x.neutronWidth p * (x.capture + x.fission) / (E - x.position s) ^ 2).sum := by
  obtain ⟨p, q, s, φ, hat⟩ := at_exists h
  obtain ⟨xs, hp, hx⟩ := hd.made hx₁ hx₂
  have hat₁ := hat.transfer hd.channel₁ hd.qx₁
  obtain ⟨hp0, hq0⟩ := at_nonneg hn hR hat
  have hu := unit_nonneg (K := K) (E := E) hg
  have hE := haway s hat.2.2.1
  have a := reaction_gains hx hat h
  have b := reaction_gains hx₁ hat₁ h₁
  rw [hd.channel₁, unit_congr hd.channel₁] at b
  have hD : ∀ x ∈ xs₂, 0 < (E - x.position s) ^ 2 := fun x hx =>
    lt_of_le_of_ne (sq_nonneg _) (Ne.symm (pow_ne_zero 2 (sub_ne_zero.mpr (hE x hx))))
  have hc : 0 ≤ (xs₂.map fun x => x.captureTerm E p q s).sum := by
    refine List.sum_nonneg fun y hy => ?_
    obtain ⟨x, hx, rfl⟩ := List.mem_map.mp hy
    have := (widths_nonneg (hp₂ x hx) hp0 hq0).1
    have := (hp₂ x hx).2.1
    unfold Spec.Parameters.captureTerm Spec.Parameters.denominator
    positivity
  have hf : 0 ≤ (xs₂.map fun x => x.fissionTerm E p q s).sum := by
    refine List.sum_nonneg fun y hy => ?_
    obtain ⟨x, hx, rfl⟩ := List.mem_map.mp hy
    have := (widths_nonneg (hp₂ x hx) hp0 hq0).1
    have := (hp₂ x hx).2.2.1
    unfold Spec.Parameters.fissionTerm Spec.Parameters.denominator
    positivity
  have hs : (xs₂.map fun x => x.captureTerm E p q s).sum + (xs₂.map fun x => x.fissionTerm E p q s).sum
      ≤ (xs₂.map fun x => x.neutronWidth p * (x.capture + x.fission) / (E - x.position s) ^ 2).sum := by
    rw [← List.sum_map_add]
    refine List.sum_le_sum fun x hx => ?_
    have h1 := (widths_nonneg (hp₂ x hx) hp0 hq0).1
    have h2 := (hp₂ x hx).2.1
    have h3 := (hp₂ x hx).2.2.1
    unfold Spec.Parameters.captureTerm Spec.Parameters.fissionTerm
    rw [← add_div, ← mul_add]
    refine div_le_div_of_nonneg_left (mul_nonneg h1 (by linarith)) (hD x hx) ?_
    unfold Spec.Parameters.denominator
    nlinarith [sq_nonneg (x.totalWidth p q)]
  refine ⟨p, q, s, φ, hat, ?_, ?_, ?_⟩
  · rw [a.1, b.1, sum_perm hp]
    exact mul_le_mul_of_nonneg_left (by linarith) hu
  · rw [a.2, b.2, sum_perm hp]
    exact mul_le_mul_of_nonneg_left (by linarith) hu
  · rw [a.1, a.2, b.1, b.2, sum_perm hp, sum_perm hp]
    have := mul_le_mul_of_nonneg_left hs hu
    linarith

/-! ## Interference does occur, of both signs -/

namespace Example

/-- A resonance with only a neutron width of 1, at some energy. -/
noncomputable def pureAt (e : ℝ) : Resonance := ⟨e, 1, 0, 0, 0, 1, 0, none, 0⟩

/-- The parameters it is made from. -/
noncomputable def pureAtParameters (e : ℝ) : Spec.Parameters := ⟨e, 1, 0, 0, 0, 1, 1, 0⟩

theorem pureAt_made (e : ℝ) : Made (pureAtParameters e) (pureAt e) := by
  unfold Made makeResonance pureAtParameters pureAt
  norm_num

theorem pureAt_nonneg (e : ℝ) : NonnegParameters (pureAtParameters e) := by
  norm_num [NonnegParameters, pureAtParameters]

theorem pureAt_divided (a b : ℝ) :
    Divided (sGroup 0 [pureAt a, pureAt b]) (sGroup 0 [pureAt a]) (sGroup 0 [pureAt b]) :=
  ⟨rfl, rfl, rfl, rfl, List.Perm.refl _⟩

theorem pureAt_evaluates (lib : CoulombLibrary) (f : Formalism) (es : List ℝ) (m : LegacyMap) :
    ∃ m' g', evaluate Verif.Example.constants lib 2 f (sGroup 0 (es.map pureAt)) m = .ok (m', g') := by
  refine evaluate_of_values (sValues lib 0 _ ?_) f m
  intro r hr
  obtain ⟨e, -, rfl⟩ := List.mem_map.mp hr
  norm_num [pureAt]

end Example

/-- C102: under the multi-level formalism two resonances add more elastic scattering than they do separately
when the energy is below both of them, and less when the energy is between them. -/
theorem C102_interference (lib : CoulombLibrary) (a b : ℝ) :
    ∃ m' g' m₁ g₁ m₂ g₂,
      evaluate Verif.Example.constants lib 2 .multiLevel
        (Example.sGroup 0 [Example.pureAt a, Example.pureAt b]) (fun _ => none) = .ok (m', g') ∧
      evaluate Verif.Example.constants lib 2 .multiLevel
        (Example.sGroup 0 [Example.pureAt a]) (fun _ => none) = .ok (m₁, g₁) ∧
      evaluate Verif.Example.constants lib 2 .multiLevel
        (Example.sGroup 0 [Example.pureAt b]) (fun _ => none) = .ok (m₂, g₂) ∧
      (let id := legacyID (Example.sGroup 0 []).channel .elastic
       (0 < (2 - a) * (2 - b) + 1 / 4 →
          gain (fun _ => none) m₁ id + gain (fun _ => none) m₂ id < gain (fun _ => none) m' id) ∧
       ((2 - a) * (2 - b) + 1 / 4 < 0 →
          gain (fun _ => none) m' id < gain (fun _ => none) m₁ id + gain (fun _ => none) m₂ id)) := by
  obtain ⟨m', g', h⟩ := Example.pureAt_evaluates lib .multiLevel [a, b] fun _ => none
  obtain ⟨m₁, g₁, h₁⟩ := Example.pureAt_evaluates lib .multiLevel [a] fun _ => none
  obtain ⟨m₂, g₂, h₂⟩ := Example.pureAt_evaluates lib .multiLevel [b] fun _ => none
  refine ⟨m', g', m₁, g₁, m₂, g₂, h, h₁, h₂, ?_⟩
  obtain ⟨p, q, s, φ, hat, e⟩ := C102_two_resonances (Example.pureAt_divided a b)
    (.cons (Example.pureAt_made a) .nil) (.cons (Example.pureAt_made b) .nil) h h₁ h₂
  have hat' := Example.at_of (Example.sValues lib 0 [Example.pureAt a, Example.pureAt b] (by
    intro r hr
    fin_cases hr <;> norm_num [Example.pureAt])) rfl
  obtain ⟨rfl, rfl, rfl, rfl⟩ := hat.unique hat'
  rw [Example.unit_eq] at e
  have hpi := Real.pi_pos
  have v : ∀ c, (Example.pureAtParameters c).neutronWidth 1 = 1 ∧
      (Example.pureAtParameters c).totalWidth 1 1 = 1 ∧ (Example.pureAtParameters c).position 0 = c ∧
      0 < (Example.pureAtParameters c).denominator 2 1 1 0 := by
    intro c
    refine ⟨?_, ?_, ?_, ?_⟩
    · norm_num [Example.pureAtParameters, Spec.Parameters.neutronWidth]
    · norm_num [Example.pureAtParameters, Spec.Parameters.neutronWidth, Spec.Parameters.totalWidth]
    · norm_num [Example.pureAtParameters, Spec.Parameters.position]
    · have : (Example.pureAtParameters c).totalWidth 1 1 = 1 := by
        norm_num [Example.pureAtParameters, Spec.Parameters.neutronWidth, Spec.Parameters.totalWidth]
      unfold Spec.Parameters.denominator
      rw [this]
      positivity
  obtain ⟨a1, a2, a3, a4⟩ := v a
  obtain ⟨b1, b2, b3, b4⟩ := v b
  rw [a1, a2, a3, b1, b2, b3, one_mul, one_mul] at e
  have hpos := mul_pos a4 b4
  generalize (Example.pureAtParameters a).denominator 2 1 1 0
    * (Example.pureAtParameters b).denominator 2 1 1 0 = D at *
  change _ = gain _ m₁ (legacyID (Example.sGroup 0 []).channel .elastic)
    + gain _ m₂ (legacyID (Example.sGroup 0 []).channel .elastic) + _ at e
  change gain _ m' (legacyID (Example.sGroup 0 []).channel .elastic) = _ at e
  constructor
  · intro h0
    have := mul_pos (mul_pos two_pos hpi) (div_pos h0 hpos)
    linarith
  · intro h0
    have := mul_neg_of_pos_of_neg (mul_pos two_pos hpi) (div_neg_of_neg_of_pos h0 hpos)
    linarith

/-- Both cases occur: below the two resonances, and between them. -/
example : 0 < ((2 : ℝ) - 3) * (2 - 4) + 1 / 4 ∧ ((2 : ℝ) - 1) * (2 - 3) + 1 / 4 < 0 := by norm_num

/-- Groups as the bounds ask for: a neutron channel, a group of two resonances divided into groups of one. -/
example : (Example.sGroup 0 [Example.pureAt 1, Example.pureAt 3]).channel.type = .neutron ∧
    (∀ e R, (Example.sGroup 0 [Example.pureAt 1, Example.pureAt 3]).channel.radii.penetrability e = .ok R →
      0 ≤ R) ∧
    0 ≤ (Example.sGroup 0 [Example.pureAt 1, Example.pureAt 3]).channel.spinFactor ∧
    Divided (Example.sGroup 0 [Example.pureAt 1, Example.pureAt 3]) (Example.sGroup 0 [Example.pureAt 1])
      (Example.sGroup 0 [Example.pureAt 3]) ∧
    NonnegParameters (Example.pureAtParameters 3) ∧ (2 : ℝ) ≠ (Example.pureAtParameters 3).position 0 := by
  refine ⟨rfl, ?_, ?_, Example.pureAt_divided 1 3, Example.pureAt_nonneg 3, ?_⟩
  · intro e R h
    have : R = 1 := (Except.ok.inj h).symm
    rw [this]; exact zero_le_one
  · rw [show (Example.sGroup 0 [Example.pureAt 1, Example.pureAt 3]).channel
      = Example.channel 0 (1 / 2) 0 from rfl, Example.spinFactor]
    norm_num [statisticalSpinFactor]
  · norm_num [Example.pureAtParameters, Spec.Parameters.position]

end Verif.BreitWigner
