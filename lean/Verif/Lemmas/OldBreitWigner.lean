import Verif.Lemmas.Old
import Verif.Props.OldStatistics

/-!
# Lemmas for the older Breit-Wigner code: one l value
-/

namespace Verif.Old

open Spec (Assigned Wave neutronFactor)

/-- The resonance has these parameters. -/
structure Made (I : ℚ) (a : Assigned) (r : Resonance) : Prop where
  energy : r.energy = a.parameters.energy
  neutronWidth : r.neutronWidth = a.parameters.elastic
  captureWidth : r.captureWidth = a.parameters.capture
  fissionWidth : r.fissionWidth = a.parameters.fission
  competition : r.weightedCompetitiveWidth
    = a.parameters.competition / a.parameters.competitivePenetrability
  penetrability : a.parameters.penetrability ≠ 0
  inverse : r.inversePenetrationFactor = 1 / a.parameters.penetrability
  shiftFactor : r.shiftFactor = a.parameters.shiftFactor
  statisticalFactor : r.statisticalFactor = (neutronFactor I a.J : ℝ)

variable {I : ℚ} {a : Assigned} {r : Resonance}

/-- Widths and position at an energy. -/
theorem Made.at (h : Made I a r) (p q s : ℝ) :
    r.neutronWidth * r.inversePenetrationFactor * p = a.parameters.neutronWidth p ∧
    a.parameters.neutronWidth p + r.captureWidth + r.fissionWidth + r.weightedCompetitiveWidth * q
      = a.parameters.totalWidth p q ∧
    r.energy + 0.5 * (r.neutronWidth * r.inversePenetrationFactor) * (r.shiftFactor - s)
      = a.parameters.position s := by
  have hp := h.penetrability
  rw [h.neutronWidth, h.inverse, h.captureWidth, h.fissionWidth, h.competition, h.energy, h.shiftFactor]
  unfold Spec.Parameters.totalWidth Spec.Parameters.neutronWidth Spec.Parameters.position
  refine ⟨by ring, by ring, ?_⟩
  field_simp
  norm_num
  ring

/-- `ψ` and `χ` with the denominator of the formula. -/
theorem psiChi_eq {E e t : ℝ} (ht : t ≠ 0) : (E - e) ^ 2 + t ^ 2 / 4 ≠ 0 ∧
    (psiChi E e (1 / t)).1 = t ^ 2 / 4 / ((E - e) ^ 2 + t ^ 2 / 4) ∧
    (psiChi E e (1 / t)).2 = (E - e) * t / 2 / ((E - e) ^ 2 + t ^ 2 / 4) := by
  have h0 : (E - e) ^ 2 + t ^ 2 / 4 ≠ 0 := by positivity
  have h1 : 1 + 2 * (E - e) * (1 / t) * (2 * (E - e) * (1 / t)) ≠ 0 := by
    have : 0 < 1 + 2 * (E - e) * (1 / t) * (2 * (E - e) * (1 / t)) := by
      nlinarith [mul_self_nonneg (2 * (E - e) * (1 / t))]
    exact this.ne'
  refine ⟨h0, ?_, ?_⟩
  · unfold psiChi
    simp only
    rw [eq_div_iff h0, div_mul_eq_mul_div, div_eq_iff h1]
    field_simp
    ring
  · unfold psiChi
    simp only
    rw [eq_div_iff h0, mul_one_div, div_mul_eq_mul_div, div_eq_iff h1]
    field_simp
    ring

theorem single_ok {w : Wave} {E : ℝ} {v : Pack 3 ℝ} (h : Made I a r)
    (hv : r.single E w.p w.s (Real.sin w.φ * Real.sin w.φ) (Real.sin (2 * w.φ))
      (r.weightedCompetitiveWidth * w.q) = .ok v) :
    4 * v 0 = (neutronFactor I a.J : ℝ) * a.parameters.elasticTerm E w.p w.q w.s w.φ ∧
    4 * v 1 = (neutronFactor I a.J : ℝ) * a.parameters.captureTerm E w.p w.q w.s ∧
    4 * v 2 = (neutronFactor I a.J : ℝ) * a.parameters.fissionTerm E w.p w.q w.s := by
  obtain ⟨h1, h2, h3⟩ := h.at w.p w.q w.s
  unfold Resonance.single at hv
  simp only [h1, h2, h3] at hv
  split at hv
  · cases hv
  rename_i ht
  obtain ⟨hd, hψ, hχ⟩ := psiChi_eq (E := E) (e := a.parameters.position w.s) ht
  rw [hψ, hχ] at hv
  obtain rfl := Except.ok.inj hv
  simp only [Pack.mul, Matrix.cons_val_zero, Matrix.cons_val_one, Matrix.cons_val,
    h.statisticalFactor, h.captureWidth, h.fissionWidth]
  unfold Spec.Parameters.elasticTerm Spec.Parameters.captureTerm Spec.Parameters.fissionTerm
    Spec.Parameters.denominator
  generalize a.parameters.totalWidth w.p w.q = t at *
  generalize a.parameters.neutronWidth w.p = n at *
  generalize a.parameters.position w.s = e at *
  refine ⟨?_, ?_, ?_⟩
  · field_simp
    ring
  · field_simp
  · field_simp

theorem multi_ok {w : Wave} {E : ℝ} {v : Pack 4 ℝ} (h : Made I a r)
    (hv : r.multi E w.p w.s (r.weightedCompetitiveWidth * w.q) = .ok v) :
    (E - (a.level w).position) ^ 2 + (a.level w).total ^ 2 / 4 ≠ 0 ∧
    2 * v 0 = (a.level w).width * ((a.level w).total / 2)
      / ((E - (a.level w).position) ^ 2 + (a.level w).total ^ 2 / 4) ∧
    2 * v 1 = (a.level w).width * (E - (a.level w).position)
      / ((E - (a.level w).position) ^ 2 + (a.level w).total ^ 2 / 4) ∧
    4 * v 2 = a.parameters.captureTerm E w.p w.q w.s ∧
    4 * v 3 = a.parameters.fissionTerm E w.p w.q w.s := by
  obtain ⟨h1, h2, h3⟩ := h.at w.p w.q w.s
  unfold Resonance.multi at hv
  simp only [h1, h2, h3] at hv
  split at hv
  · cases hv
  rename_i ht
  obtain ⟨hd, hψ, hχ⟩ := psiChi_eq (E := E) (e := a.parameters.position w.s) ht
  rw [hψ, hχ] at hv
  obtain rfl := Except.ok.inj hv
  simp only [Matrix.cons_val_zero, Matrix.cons_val_one, Matrix.cons_val,
    h.captureWidth, h.fissionWidth, Assigned.level]
  unfold Spec.Parameters.captureTerm Spec.Parameters.fissionTerm Spec.Parameters.denominator
  generalize a.parameters.totalWidth w.p w.q = t at *
  generalize a.parameters.neutronWidth w.p = n at *
  generalize a.parameters.position w.s = e at *
  refine ⟨hd, ?_, ?_, ?_, ?_⟩
  · field_simp
    ring
  · field_simp
  · field_simp
  · field_simp


theorem forall₂_sum {α β : Type} {n : ℕ} {R : α → β → Prop} {f : β → Outcome (Pack n ℝ)} {as : List α}
    {bs : List β} {vs : List (Pack n ℝ)} {F : α → ℝ} {c : ℝ} (i : Fin n) (hR : List.Forall₂ R as bs)
    (h : bs.mapM f = .ok vs) (hF : ∀ a b v, R a b → f b = .ok v → c * v i = F a) :
    c * (vs.map fun p => p i).sum = (as.map F).sum := by
  rw [mapM_ok] at h
  induction hR generalizing vs with
  | nil =>
    cases h
    simp
  | @cons a b as bs h1 _ ih =>
    cases h with
    | cons h2 h3 =>
      rw [List.map_cons, List.map_cons, List.sum_cons, List.sum_cons, mul_add, ih h3, hF a b _ h1 h2]

/-- Two lists of the same elements, related to lists of the same elements. -/
theorem forall₂_perm {α β : Type} {R : α → β → Prop} {as : List α} {bs bs' : List β}
    (h : List.Forall₂ R as bs) (hp : bs'.Perm bs) : ∃ as', as'.Perm as ∧ List.Forall₂ R as' bs' := by
  obtain ⟨x, h1, h2⟩ := List.perm_comp_forall₂ hp (h.flip : List.Forall₂ (flip R) bs as)
  exact ⟨x, h2, h1.flip⟩

/-- A group of the multi-level code. -/
theorem group_ok {w : Wave} {E : ℝ} {v : Pack 3 ℝ} {J : ℚ} {as : List Assigned} {rs : List Resonance}
    (h : List.Forall₂ (Made I) as rs) (hJ : ∀ a ∈ as, a.J = J)
    (hv : groupMulti E w.p w.s (Real.sin w.φ * Real.sin w.φ) (Real.sin (2 * w.φ))
      (fun r => r.weightedCompetitiveWidth * w.q) rs = .ok v) :
    4 * v 0 = (neutronFactor I J : ℝ)
      * (Complex.normSq (1 - Spec.levelCollision w.φ E (as.map fun a => a.level w))
        - 4 * Real.sin w.φ ^ 2) ∧
    4 * v 1 = (neutronFactor I J : ℝ) * (as.map fun a => a.parameters.captureTerm E w.p w.q w.s).sum ∧
    4 * v 2 = (neutronFactor I J : ℝ) * (as.map fun a => a.parameters.fissionTerm E w.p w.q w.s).sum := by
  unfold groupMulti at hv
  rw [bind_ok] at hv
  obtain ⟨vs, hvs, hv⟩ := hv
  have hd : ∀ l ∈ as.map fun a => a.level w, (E - l.position) ^ 2 + l.total ^ 2 / 4 ≠ 0 := by
    intro l hl
    obtain ⟨a, ha, rfl⟩ := List.mem_map.mp hl
    obtain ⟨r, hr, hm⟩ := forall₂_mem h ha
    obtain ⟨v, hv⟩ := mapM_exists.mp ⟨vs, hvs⟩ r hr
    exact (multi_ok hm hv).1
  have hM : ∀ a r v, Made I a r →
      r.multi E w.p w.s (r.weightedCompetitiveWidth * w.q) = .ok v → _ := fun a r v h1 h2 =>
    multi_ok h1 h2
  have e0 := forall₂_sum (c := 2) 0 h hvs fun a r v h1 h2 => (hM a r v h1 h2).2.1
  have e1 := forall₂_sum (c := 2) 1 h hvs fun a r v h1 h2 => (hM a r v h1 h2).2.2.1
  have e2 := forall₂_sum (c := 4) 2 h hvs fun a r v h1 h2 => (hM a r v h1 h2).2.2.2.1
  have e3 := forall₂_sum (c := 4) 3 h hvs fun a r v h1 h2 => (hM a r v h1 h2).2.2.2.2
  cases h with
  | nil => cases hv
  | @cons a r as rs h1 h2 =>
    simp only at hv
    have hs : r.statisticalFactor = (neutronFactor I J : ℝ) := by
      rw [h1.statisticalFactor, hJ a List.mem_cons_self]
    obtain rfl := Except.ok.inj hv
    rw [Spec.levelCollision, BreitWigner.amplitude_eq _ _ hd, BreitWigner.normSq_one_sub]
    simp only [Pack.mul, Pack.foldl_eq, Matrix.cons_val_zero, Matrix.cons_val_one, Matrix.cons_val, hs,
      zero_add, List.map_map, Function.comp_def]
    rw [← e0, ← e1, ← e2, ← e3]
    refine ⟨by ring, by ring, by ring⟩

theorem neutronFactor_inj {I : ℚ} (hI : 4 * I + 2 ≠ 0) :
    Function.Injective fun J => (neutronFactor I J : ℝ) := by
  intro J J' h
  have h' : neutronFactor I J = neutronFactor I J' := by
    simp only at h
    exact_mod_cast h
  unfold neutronFactor at h'
  rw [div_left_inj' hI] at h'
  linarith

/-- The multi-level sums for the resonances of one l value in any order. -/
theorem multiElastic_perm {E : ℝ} {w : Wave} {as as' : List Assigned} (h : as.Perm as') :
    Spec.multiElastic I E w as = Spec.multiElastic I E w as' := by
  unfold Spec.multiElastic
  have h1 : (as.map Assigned.J).toFinset = (as'.map Assigned.J).toFinset := by
    ext J
    simp only [List.mem_toFinset, (h.map Assigned.J).mem_iff]
  rw [h1]
  congr 1
  refine Finset.sum_congr rfl fun J _ => ?_
  congr 2
  unfold Spec.levelCollision Spec.levelSum
  congr 4
  rw [List.map_map, List.map_map]
  exact ((h.filter _).map _).sum_eq

theorem multi_lvalue {w : Wave} {E channelRatio scatteringRatio : ℝ} {out : Pack 3 ℝ} {v : LValue}
    {as : List Assigned} (hI : 4 * I + 2 ≠ 0)
    (hm : List.Forall₂ (Made I) as v.resonances)
    (hsort : v.resonances.Pairwise fun a b => a.statisticalFactor ≤ b.statisticalFactor)
    (hp : oldPenetrationShift v.l channelRatio = .ok (w.p, w.s))
    (hφ : oldPhaseShift v.l scatteringRatio = .ok w.φ) (hl : v.l = w.l)
    (h : v.evaluateMulti E channelRatio scatteringRatio I
      (fun r => r.weightedCompetitiveWidth * w.q) = .ok out) :
    ∃ d : ℚ, D I w.l = .ok d ∧
    4 * out 0 = Spec.multiElastic I E w as
      + (d + v.statisticalFactorSum - (2 * w.l + 1)) * (4 * Real.sin w.φ ^ 2) ∧
    4 * out 1 = Spec.captureSum I E w as ∧ 4 * out 2 = Spec.fissionSum I E w as := by
  unfold LValue.evaluateMulti at h
  rw [hp, hφ] at h
  dsimp only at h
  rw [bind_ok] at h
  obtain ⟨_, e, h⟩ := h
  obtain rfl := Except.ok.inj e
  rw [bind_ok] at h
  obtain ⟨_, e, h⟩ := h
  obtain rfl := Except.ok.inj e
  dsimp only at h
  rw [bind_ok] at h
  obtain ⟨vs, hvs, h⟩ := h
  rw [bind_ok] at h
  obtain ⟨d, hd, h⟩ := h
  refine ⟨d, hl ▸ hd, ?_⟩
  obtain rfl := Except.ok.inj h
  have hg := fun J rs x hrs hx => group_ok (J := J) (as := as.filter fun a => a.J = J) (rs := rs) (v := x)
    (w := w) (E := E) (I := I) hrs (by simp) hx
  have e0 := group_sum (neutronFactor_inj hI) (fun a r (h : Made I a r) => h.statisticalFactor) hm hsort
    hvs (c := 4) 0 fun J rs x hrs hx => (hg J rs x hrs hx).1
  have e1 := group_sum (neutronFactor_inj hI) (fun a r (h : Made I a r) => h.statisticalFactor) hm hsort
    hvs (c := 4) 1 fun J rs x hrs hx => (hg J rs x hrs hx).2.1
  have e2 := group_sum (neutronFactor_inj hI) (fun a r (h : Made I a r) => h.statisticalFactor) hm hsort
    hvs (c := 4) 2 fun J rs x hrs hx => (hg J rs x hrs hx).2.2
  simp only [Pack.foldl_eq, mul_add, Matrix.cons_val_zero, Matrix.cons_val_one, Matrix.cons_val, e0, e1, e2]
  refine ⟨?_, ?_, ?_⟩
  · unfold Spec.multiElastic
    simp only [mul_sub, Finset.sum_sub_distrib, ← Finset.sum_mul]
    have h1 : Real.sin (2 * w.φ) ^ 2 = 4 * Real.sin w.φ ^ 2 * (1 - Real.sin w.φ ^ 2) := by
      rw [Real.sin_two_mul, ← Real.cos_sq']
      ring
    linear_combination v.statisticalFactorSum * h1
  · unfold Spec.captureSum
    rw [mul_zero, zero_add]
    exact sum_labels Assigned.J _ _ as fun a ha => by simpa using ⟨a, ha, rfl⟩
  · unfold Spec.fissionSum
    rw [mul_zero, zero_add]
    exact sum_labels Assigned.J _ _ as fun a ha => by simpa using ⟨a, ha, rfl⟩

theorem single_lvalue {w : Wave} {E channelRatio scatteringRatio : ℝ} {out : Pack 3 ℝ} {v : LValue}
    {as : List Assigned} (hm : List.Forall₂ (Made I) as v.resonances)
    (hp : oldPenetrationShift v.l channelRatio = .ok (w.p, w.s))
    (hφ : oldPhaseShift v.l scatteringRatio = .ok w.φ) (hl : v.l = w.l)
    (h : v.evaluateSingle E channelRatio scatteringRatio
      (fun r => r.weightedCompetitiveWidth * w.q) = .ok out) :
    4 * out 0 = Spec.singleElastic I E w as ∧
    4 * out 1 = Spec.captureSum I E w as ∧ 4 * out 2 = Spec.fissionSum I E w as := by
  unfold LValue.evaluateSingle at h
  rw [hp, hφ] at h
  dsimp only at h
  rw [bind_ok] at h
  obtain ⟨_, e, h⟩ := h
  obtain rfl := Except.ok.inj e
  rw [bind_ok] at h
  obtain ⟨_, e, h⟩ := h
  obtain rfl := Except.ok.inj e
  dsimp only at h
  rw [bind_ok] at h
  obtain ⟨vs, hvs, h⟩ := h
  obtain rfl := Except.ok.inj h
  have e0 := forall₂_sum (c := 4) 0 hm hvs fun a r v h1 h2 => (single_ok h1 h2).1
  have e1 := forall₂_sum (c := 4) 1 hm hvs fun a r v h1 h2 => (single_ok h1 h2).2.1
  have e2 := forall₂_sum (c := 4) 2 hm hvs fun a r v h1 h2 => (single_ok h1 h2).2.2
  simp only [Pack.foldl_eq, mul_add, Matrix.cons_val_zero, Matrix.cons_val_one, Matrix.cons_val, e0, e1, e2]
  unfold Spec.singleElastic Spec.captureSum Spec.fissionSum
  refine ⟨?_, by ring, by ring⟩
  rw [hl]
  ring

end Verif.Old
