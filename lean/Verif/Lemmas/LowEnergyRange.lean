import Verif.Lemmas.LowEnergyLegacy
import Verif.Props.BreitWignerAccepted

/-!
# The partial waves of a Breit-Wigner range at very low energies
-/

namespace Verif

open Filter Topology Complex Spec

/-- Resonances that cannot be told apart. -/
structure Same (a a' : Assigned) : Prop where
  J : a.J = a'.J
  capture : a.parameters.capture = a'.parameters.capture
  fission : a.parameters.fission = a'.parameters.fission
  width : ∀ p, a.parameters.neutronWidth p = a'.parameters.neutronWidth p
  total : ∀ p q, a.parameters.totalWidth p q = a'.parameters.totalWidth p q
  position : ∀ s, a.parameters.position s = a'.parameters.position s

theorem same_of_isResonance {k : ℝ → ℝ} {channel : ℝ → Outcome ℝ} {lv : Endf.BreitWignerLValue}
    {r : Endf.BreitWignerResonance} {a a' : Assigned} (h : IsResonance k channel lv r a)
    (h' : IsResonance k channel lv r a') : Same a a' := by
  obtain ⟨R, r1, r2, r3⟩ := h.own
  obtain ⟨R', r1', r2', r3'⟩ := h'.own
  obtain rfl := Except.ok.inj (r1.symm.trans r1')
  have hw : ∀ p, a.parameters.neutronWidth p = a'.parameters.neutronWidth p := fun p => by
    unfold Parameters.neutronWidth
    rw [h.elastic, h'.elastic, r2, r2']
  refine ⟨by rw [h.J, h'.J], by rw [h.capture, h'.capture], by rw [h.fission, h'.fission], hw,
    fun p q => ?_, fun s => ?_⟩
  · unfold Parameters.totalWidth
    rw [hw, h.capture, h'.capture, h.fission, h'.fission, h.competition, h'.competition]
    by_cases hl : lv.lrx = 0
    · simp [hl]
    · obtain ⟨Q, q1, q2⟩ := h.competitive hl
      obtain ⟨Q', q1', q2'⟩ := h'.competitive hl
      obtain rfl := Except.ok.inj (q1.symm.trans q1')
      rw [q2, q2']
  · unfold Parameters.position
    rw [h.energy, h'.energy, h.elastic, h'.elastic, r2, r2', r3, r3']

theorem forall₂_same {k : ℝ → ℝ} {channel : ℝ → Outcome ℝ} {lv : Endf.BreitWignerLValue}
    {rs : List Endf.BreitWignerResonance} {as as' : List Assigned}
    (h : List.Forall₂ (IsResonance k channel lv) rs as) (h' : List.Forall₂ (IsResonance k channel lv) rs as') :
    List.Forall₂ Same as as' := by
  induction h generalizing as' with
  | nil => cases h'; exact .nil
  | cons h1 _ ih =>
    cases h' with
    | cons h1' h2' => exact .cons (same_of_isResonance h1 h1') (ih h2')

/-- Waves that cannot be told apart. -/
structure SameWave (w w' : Wave) : Prop where
  p : w.p = w'.p
  q : w.q = w'.q
  s : w.s = w'.s
  phase : exp (2 * I * w.φ) = exp (2 * I * w'.φ)
  l : w.l = w'.l

namespace Same

variable {a a' : Assigned} {w w' : Wave} {E : ℝ} {as as' : List Assigned} {i : ℚ}

theorem denominator (h : Same a a') (p q s : ℝ) :
    a.parameters.denominator E p q s = a'.parameters.denominator E p q s := by
  unfold Parameters.denominator
  rw [h.total, h.position]

theorem sums {f f' : Assigned → ℝ} (h : List.Forall₂ Same as as') (hf : ∀ a a', Same a a' → f a = f' a') :
    (as.map f).sum = (as'.map f').sum := by
  induction h with
  | nil => rfl
  | cons h1 _ ih => rw [List.map_cons, List.map_cons, List.sum_cons, List.sum_cons, ih, hf _ _ h1]

theorem captureSum_eq (h : List.Forall₂ Same as as') (hw : SameWave w w') :
    captureSum i E w as = captureSum i E w' as' := by
  unfold captureSum
  refine sums h fun a a' h => ?_
  unfold Parameters.captureTerm
  rw [h.J, h.width, h.capture, h.denominator, hw.p, hw.q, hw.s]

theorem fissionSum_eq (h : List.Forall₂ Same as as') (hw : SameWave w w') :
    fissionSum i E w as = fissionSum i E w' as' := by
  unfold fissionSum
  refine sums h fun a a' h => ?_
  unfold Parameters.fissionTerm
  rw [h.J, h.width, h.fission, h.denominator, hw.p, hw.q, hw.s]

theorem sin_sq_eq (hw : SameWave w w') : Real.sin w.φ ^ 2 = Real.sin w'.φ ^ 2 := by
  rw [pow_two, pow_two, sin_sq_of_exp, sin_sq_of_exp, hw.phase]

theorem levels_eq (h : List.Forall₂ Same as as') (hw : SameWave w w') (J : ℚ) :
    (as.filter fun r => r.J = J).map (fun r => r.level w)
      = (as'.filter fun r => r.J = J).map fun r => r.level w' := by
  induction h with
  | nil => rfl
  | @cons a a' as as' h1 _ ih =>
    rw [List.filter_cons, List.filter_cons, h1.J]
    split
    · rw [List.map_cons, List.map_cons, ih]
      congr 1
      unfold Assigned.level
      rw [h1.width, h1.total, h1.position, hw.p, hw.q, hw.s]
    · exact ih

theorem spins_eq (h : List.Forall₂ Same as as') : as.map Assigned.J = as'.map Assigned.J := by
  induction h with
  | nil => rfl
  | cons h1 _ ih => rw [List.map_cons, List.map_cons, ih, h1.J]

theorem resonantElastic_eq (multi : Bool) (h : List.Forall₂ Same as as') (hw : SameWave w w') :
    resonantElastic multi i E w as = resonantElastic multi i E w' as' := by
  unfold resonantElastic
  rw [hw.l, sin_sq_eq hw]
  congr 1
  cases multi with
  | true =>
    simp only [if_true]
    unfold multiElastic
    rw [spins_eq h, hw.l, sin_sq_eq hw]
    congr 1
    refine Finset.sum_congr rfl fun J _ => ?_
    rw [levels_eq h hw J]
    unfold levelCollision
    have hne : exp (-(2 * I * w.φ)) = exp (-(2 * I * w'.φ)) := by
      rw [Complex.exp_neg, Complex.exp_neg, hw.phase]
    rw [hne]
  | false =>
    simp only [Bool.false_eq_true, if_false]
    unfold singleElastic
    rw [hw.l, sin_sq_eq hw]
    congr 1
    refine sums h fun a a' h => ?_
    unfold Parameters.elasticTerm
    rw [h.J, h.width, h.total, h.position, h.denominator, hw.p, hw.q, hw.s, sin_sq_eq hw, sin_two_of_exp,
      hw.phase, ← sin_two_of_exp]

end Same

/-! ## Limits of the sums of a partial wave -/

section

variable {P Q S φ : ℝ → ℝ} {α β q s : ℝ} {as : List Assigned} {i : ℚ} {l : ℕ}

theorem captureSum_slow (h : SlowWave P Q S φ α β q s) (hx : ∀ a ∈ as, a.parameters.denominator 0 0 q s ≠ 0) :
    Tendsto (fun E => captureSum i E ⟨l, P E, S E, φ E, Q E⟩ as / Real.sqrt E) (𝓝[>] 0)
      (𝓝 (α * (as.map fun r => (neutronFactor i r.J : ℝ) * slowCapture q s [r.parameters]).sum)) := by
  unfold captureSum
  rw [← List.sum_map_mul_left]
  simp only [SlowWave.sum_map_div]
  refine SlowWave.sum_map_tendsto as fun a ha => ?_
  have := (h.capture (xs := [a.parameters]) fun x hx' => by
    obtain rfl := List.mem_singleton.mp hx'
    exact hx a ha).const_mul (neutronFactor i a.J : ℝ)
  rw [mul_left_comm] at this
  refine this.congr fun E => ?_
  simp only [List.map_cons, List.map_nil, List.sum_cons, List.sum_nil, add_zero]
  rw [mul_div_assoc]

theorem fissionSum_slow (h : SlowWave P Q S φ α β q s) (hx : ∀ a ∈ as, a.parameters.denominator 0 0 q s ≠ 0) :
    Tendsto (fun E => fissionSum i E ⟨l, P E, S E, φ E, Q E⟩ as / Real.sqrt E) (𝓝[>] 0)
      (𝓝 (α * (as.map fun r => (neutronFactor i r.J : ℝ) * slowFission q s [r.parameters]).sum)) := by
  unfold fissionSum
  rw [← List.sum_map_mul_left]
  simp only [SlowWave.sum_map_div]
  refine SlowWave.sum_map_tendsto as fun a ha => ?_
  have := (h.fission (xs := [a.parameters]) fun x hx' => by
    obtain rfl := List.mem_singleton.mp hx'
    exact hx a ha).const_mul (neutronFactor i a.J : ℝ)
  rw [mul_left_comm] at this
  refine this.congr fun E => ?_
  simp only [List.map_cons, List.map_nil, List.sum_cons, List.sum_nil, add_zero]
  rw [mul_div_assoc]

/-- A sum over resonances is one over their spins. -/
theorem sum_by_spin (as : List Assigned) (f : Assigned → ℝ) :
    (as.map fun r => (neutronFactor i r.J : ℝ) * f r).sum
      = ∑ J ∈ (as.map Assigned.J).toFinset, (neutronFactor i J : ℝ)
        * ((as.filter fun r => r.J = J).map f).sum := by
  have key : ∀ (F : Finset ℚ), (∀ r ∈ as, r.J ∈ F) → (as.map fun r => (neutronFactor i r.J : ℝ) * f r).sum
      = ∑ J ∈ F, (neutronFactor i J : ℝ) * ((as.filter fun r => r.J = J).map f).sum := by
    intro F
    induction as with
    | nil => intro _; simp
    | cons a as ih =>
      intro hF
      rw [List.map_cons, List.sum_cons, ih fun r hr => hF r (List.mem_cons_of_mem _ hr)]
      have : ∀ J ∈ F, (neutronFactor i J : ℝ) * (((a :: as).filter fun r => r.J = J).map f).sum
          = (if J = a.J then (neutronFactor i J : ℝ) * f a else 0)
            + (neutronFactor i J : ℝ) * ((as.filter fun r => r.J = J).map f).sum := by
        intro J _
        rw [List.filter_cons]
        by_cases h : a.J = J
        · simp [h, mul_add]
        · simp [h, Ne.symm h]
      rw [Finset.sum_congr rfl this, Finset.sum_add_distrib, Finset.sum_ite_eq' F a.J,
        if_pos (hF a List.mem_cons_self)]
  exact key _ fun r hr => List.mem_toFinset.mpr (List.mem_map_of_mem hr)

theorem resonantElastic_slow (multi : Bool) (h : SlowWave P Q S φ α β q s)
    (hx : ∀ a ∈ as, a.parameters.denominator 0 0 q s ≠ 0) :
    Tendsto (fun E => resonantElastic multi i E ⟨l, P E, S E, φ E, Q E⟩ as / E) (𝓝[>] 0)
      (𝓝 (4 * ∑ J ∈ (as.map Assigned.J).toFinset, (neutronFactor i J : ℝ)
        * slowElastic multi q s α β ((as.filter fun r => r.J = J).map Assigned.parameters))) := by
  cases multi with
  | true =>
    have e : ∀ E, resonantElastic true i E ⟨l, P E, S E, φ E, Q E⟩ as / E
        = ∑ J ∈ (as.map Assigned.J).toFinset, (neutronFactor i J : ℝ)
          * ((normSq (1 - levelCollision (φ E) E (((as.filter fun r => r.J = J).map Assigned.parameters).map
            fun x => ⟨x.neutronWidth (P E), x.totalWidth (P E) (Q E), x.position (S E)⟩))
            - 4 * Real.sin (φ E) ^ 2) / E) := by
      intro E
      unfold resonantElastic multiElastic
      simp only [if_true]
      rw [show ∀ x y z w : ℝ, x + (y - z) * w - 4 * y * Real.sin (φ E) ^ 2
        = x - z * w + y * (w - 4 * Real.sin (φ E) ^ 2) by intros; ring, sub_self, mul_zero, add_zero,
        Finset.sum_mul, ← Finset.sum_sub_distrib, Finset.sum_div]
      refine Finset.sum_congr rfl fun J _ => ?_
      rw [← mul_sub, mul_div_assoc, List.map_map]
      rfl
    simp only [e]
    rw [Finset.mul_sum]
    refine tendsto_finsetSum _ fun J _ => ?_
    have := (h.elastic (xs := (as.filter fun r => r.J = J).map Assigned.parameters) (by
      intro x hx'
      obtain ⟨a, ha, rfl⟩ := List.mem_map.mp hx'
      exact hx a (List.mem_filter.mp ha).1)).const_mul (neutronFactor i J : ℝ)
    rw [mul_left_comm] at this
    exact this
  | false =>
    have e : ∀ E, resonantElastic false i E ⟨l, P E, S E, φ E, Q E⟩ as / E
        = (as.map fun r => (neutronFactor i r.J : ℝ)
          * r.parameters.elasticTerm E (P E) (Q E) (S E) (φ E) / E).sum := by
      intro E
      unfold resonantElastic singleElastic
      simp only [Bool.false_eq_true, if_false]
      rw [add_sub_cancel_left, SlowWave.sum_map_div]
    simp only [e]
    have e2 : (4 * ∑ J ∈ (as.map Assigned.J).toFinset, (neutronFactor i J : ℝ)
        * slowElastic false q s α β ((as.filter fun r => r.J = J).map Assigned.parameters))
        = (as.map fun r => 4 * ((neutronFactor i r.J : ℝ) * (normSq ((β : ℂ)
          - α / 2 * levelSum 0 [slowLevel q s r.parameters]) - β ^ 2))).sum := by
      rw [List.sum_map_mul_left, sum_by_spin]
      congr 1
      refine Finset.sum_congr rfl fun J _ => ?_
      unfold slowElastic
      simp only [Bool.false_eq_true, if_false, List.map_map]
      rfl
    rw [e2]
    refine SlowWave.sum_map_tendsto as fun a ha => ?_
    have := (h.elastic (xs := [a.parameters]) fun x hx' => by
      obtain rfl := List.mem_singleton.mp hx'
      exact hx a ha).const_mul (neutronFactor i a.J : ℝ)
    rw [mul_left_comm] at this
    refine this.congr' ?_
    filter_upwards [(h.denominator a.parameters).eventually_ne (hx a ha)] with E hE
    rw [elasticTerm_eq hE, mul_div_assoc]
    rfl

end

end Verif
