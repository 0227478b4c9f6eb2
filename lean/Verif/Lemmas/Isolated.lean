import Verif.Spec.Isolated
import Verif.Lemmas.LowEnergyLegacy
import Verif.Lemmas.OrderMore

/-!
# Lemmas on isolated resonances in the Breit-Wigner and the Reich-Moore formula
-/

namespace Verif.Isolated

open Spec Complex Endf

/-- The inverse for a single level. -/
theorem inverse {v : Fin 3 → ℂ} {D N : ℂ} (hD : D ≠ 0) (hN : N ≠ 0)
    (h : N = D - I / 2 * (v 0 * v 0 + v 1 * v 1 + v 2 * v 2)) :
    (1 - Matrix.of fun i j => I / 2 * (v i * v j) / D : Matrix (Fin 3) (Fin 3) ℂ)⁻¹
      = 1 + Matrix.of fun i j => I / 2 * (v i * v j) / N := by
  apply Matrix.inv_eq_right_inv
  have key : ∀ i j, I / 2 * (v i * v j) / N - I / 2 * (v i * v j) / D
      - ∑ k, (I / 2 * (v i * v k) / D) * (I / 2 * (v k * v j) / N) = 0 := by
    intro i j
    rw [Fin.sum_univ_three]
    field_simp
    rw [h]
    ring
  ext i j
  have hs := key i j
  rw [Matrix.sub_mul, Matrix.mul_add, Matrix.mul_add, Matrix.one_mul, Matrix.one_mul, Matrix.mul_one]
  simp only [Matrix.sub_apply, Matrix.add_apply, Matrix.mul_apply, Matrix.of_apply] at hs ⊢
  linear_combination hs

theorem collision {φ E : ℝ} {r : CoupledLevel} (hc : 0 < r.capture) :
    let N : ℂ := (r.energy : ℂ) - E
      - I * (r.capture + r.amplitude 0 ^ 2 + r.amplitude 1 ^ 2 + r.amplitude 2 ^ 2 : ℝ) / 2
    N ≠ 0 ∧ ∀ i j, reichMooreCollision φ E [r] i j = exp (-(2 * I * φ))
      * ((1 : Matrix (Fin 3) (Fin 3) ℂ) i j + I * (r.amplitude i * r.amplitude j) / N) := by
  intro N
  have hD : ((r.energy : ℂ) - E - I * r.capture / 2) ≠ 0 := by
    intro h
    have := congrArg im h
    simp at this
    exact hc.ne' this
  have hN : N ≠ 0 := by
    intro h
    have := congrArg im h
    simp [N, -ofReal_add, -ofReal_pow] at this
    have h0 := sq_nonneg (r.amplitude 0)
    have h1 := sq_nonneg (r.amplitude 1)
    have h2 := sq_nonneg (r.amplitude 2)
    linarith
  refine ⟨hN, fun i j => ?_⟩
  have e : reichMooreK E [r] = Matrix.of fun i j => I / 2 * ((r.amplitude i : ℂ) * r.amplitude j)
      / ((r.energy : ℂ) - E - I * r.capture / 2) := by
    ext i j
    simp [reichMooreK]
  unfold reichMooreCollision
  rw [e, inverse (v := fun i => (r.amplitude i : ℂ)) hD hN (by simp only [N]; push_cast; ring)]
  simp only [Matrix.smul_apply, Matrix.sub_apply, Matrix.add_apply, Matrix.of_apply, smul_eq_mul]
  field_simp
  ring

/-- A resonance of the Breit-Wigner formula and one of the Reich-Moore formula with the same parameters. -/
structure Same (a : Assigned) (b : Coupled) : Prop where
  J : a.J = |b.J|
  energy : a.parameters.energy = b.energy
  elastic : a.parameters.elastic = b.elastic
  capture : a.parameters.capture = b.capture
  fission : a.parameters.fission = b.fissionA
  second : b.fissionB = 0
  penetrability : a.parameters.penetrability = b.penetrability
  shift : a.parameters.shiftFactor = 0
  competition : a.parameters.competition = 0
  signs : 0 ≤ b.elastic ∧ 0 < b.capture ∧ 0 ≤ b.fissionA ∧ 0 < b.penetrability

variable {a : Assigned} {b : Coupled} {w : Wave} {E : ℝ}

theorem Same.amplitudes (h : Same a b) (hp : 0 < w.p) :
    (b.level w.p).amplitude 0 ^ 2 = a.parameters.neutronWidth w.p ∧
    (b.level w.p).amplitude 1 ^ 2 = a.parameters.fission ∧ (b.level w.p).amplitude 2 = 0 := by
  obtain ⟨h1, h2, h3, h4⟩ := h.signs
  refine ⟨?_, ?_, ?_⟩
  · show Real.sqrt _ ^ 2 = _
    rw [Real.sq_sqrt (by positivity), Parameters.neutronWidth, h.elastic, h.penetrability]
  · show fissionAmplitude _ ^ 2 = _
    rw [fissionAmplitude, if_neg h3.not_gt, Real.sq_sqrt h3, h.fission]
  · show fissionAmplitude _ = _
    rw [h.second]
    simp [fissionAmplitude]

/-- The first row of the collision matrix of a single level. -/
theorem Same.row (h : Same a b) (hp : 0 < w.p) (hs : w.s = 0) :
    a.parameters.denominator E w.p w.q w.s ≠ 0 ∧
    reichMooreCollision w.φ E [b.level w.p] 0 0 = levelCollision w.φ E [a.level w] ∧
    normSq (reichMooreCollision w.φ E [b.level w.p] 0 1) + normSq (reichMooreCollision w.φ E [b.level w.p] 0 2)
      = a.parameters.fissionTerm E w.p w.q w.s ∧
    1 - ∑ j, normSq (reichMooreCollision w.φ E [b.level w.p] 0 j)
      = a.parameters.captureTerm E w.p w.q w.s := by
  obtain ⟨s1, s2, s3, s4⟩ := h.signs
  obtain ⟨e0, e1, e2⟩ := h.amplitudes hp
  obtain ⟨hN, hU⟩ := collision (φ := w.φ) (E := E) (r := b.level w.p) s2
  have hx : 0 ≤ a.parameters.neutronWidth w.p := e0 ▸ sq_nonneg _
  have ht : a.parameters.totalWidth w.p w.q = a.parameters.neutronWidth w.p + b.capture + b.fissionA := by
    rw [Parameters.totalWidth, h.capture, h.fission, h.competition]
    simp
  have hq : a.parameters.position w.s = b.energy := by
    rw [Parameters.position, h.shift, hs, h.energy]
    simp
  have hw : ((b.level w.p).capture + (b.level w.p).amplitude 0 ^ 2 + (b.level w.p).amplitude 1 ^ 2
      + (b.level w.p).amplitude 2 ^ 2) = a.parameters.totalWidth w.p w.q := by
    rw [e0, e1, e2, ht, h.fission]
    show b.capture + _ + _ + _ = _
    ring
  rw [hw] at hN hU
  have hE : (b.level w.p).energy = b.energy := rfl
  rw [hE] at hN hU
  have hden : a.parameters.denominator E w.p w.q w.s
      = normSq ((b.energy : ℂ) - E - I * (a.parameters.totalWidth w.p w.q : ℝ) / 2) := by
    rw [Parameters.denominator, hq, normSq_apply]
    simp
    ring
  have hexp : ∀ x : ℂ, normSq (exp (-(2 * I * w.φ)) * x) = normSq x := by
    intro x
    rw [normSq_mul, normSq_eq_norm_sq (exp _), show -(2 * I * (w.φ : ℂ)) = ((-(2 * w.φ) : ℝ) : ℂ) * I by
      push_cast; ring, norm_exp_ofReal_mul_I]
    simp
  have hpos : a.parameters.denominator E w.p w.q w.s ≠ 0 := by
    rw [hden]
    exact (normSq_pos.mpr hN).ne'
  have u0 : reichMooreCollision w.φ E [b.level w.p] 0 0 = levelCollision w.φ E [a.level w] := by
    rw [hU, levelCollision, levelSum]
    simp only [Matrix.one_apply_eq, Assigned.level, List.map_cons, List.map_nil, List.sum_cons, List.sum_nil,
      add_zero, hq]
    rw [← e0]
    push_cast
    ring
  have u1 : normSq (reichMooreCollision w.φ E [b.level w.p] 0 1) = a.parameters.fissionTerm E w.p w.q w.s := by
    rw [hU, hexp, Parameters.fissionTerm, hden, Matrix.one_apply_ne (by decide), zero_add, normSq_div,
      normSq_mul, normSq_mul, normSq_I, normSq_ofReal, normSq_ofReal, ← e0, ← e1]
    ring
  have u2 : normSq (reichMooreCollision w.φ E [b.level w.p] 0 2) = 0 := by
    rw [hU, e2]
    simp
  refine ⟨hpos, u0, by rw [u1, u2, add_zero], ?_⟩
  rw [Fin.sum_univ_three, u1, u2, hU, hexp, Parameters.fissionTerm, Parameters.captureTerm]
  have e0' : ((b.level w.p).amplitude 0 : ℂ) * (b.level w.p).amplitude 0 = (a.parameters.neutronWidth w.p : ℝ) := by
    rw [← e0]
    push_cast
    ring
  rw [e0', Matrix.one_apply_eq, show (1 : ℂ) + I * (a.parameters.neutronWidth w.p : ℝ)
      / ((b.energy : ℂ) - E - I * (a.parameters.totalWidth w.p w.q : ℝ) / 2)
    = ((b.energy : ℂ) - E - I * (a.parameters.totalWidth w.p w.q : ℝ) / 2
        + I * (a.parameters.neutronWidth w.p : ℝ))
      / ((b.energy : ℂ) - E - I * (a.parameters.totalWidth w.p w.q : ℝ) / 2) by rw [add_div, div_self hN], normSq_div,
    ← hden]
  have en : normSq ((b.energy : ℂ) - E - I * (a.parameters.totalWidth w.p w.q : ℝ) / 2
        + I * (a.parameters.neutronWidth w.p : ℝ))
      = a.parameters.denominator E w.p w.q w.s - a.parameters.neutronWidth w.p * (b.capture + b.fissionA) := by
    rw [hden, normSq_apply, normSq_apply, ht]
    simp
    ring
  rw [en, h.capture, h.fission]
  field_simp
  ring

theorem filter_single {α β : Type*} [DecidableEq β] {f : α → β} {l : List α} (h : (l.map f).Nodup) {x : α}
    (hx : x ∈ l) : l.filter (fun y => f y = f x) = [x] := by
  induction l with
  | nil => simp at hx
  | cons y ys ih =>
    rw [List.map_cons, List.nodup_cons] at h
    rcases List.mem_cons.mp hx with rfl | hx
    · rw [List.filter_cons_of_pos (by simp), List.filter_eq_nil_iff.mpr]
      intro z hz
      simp only [decide_eq_true_eq]
      exact fun e => h.1 (e ▸ List.mem_map_of_mem hz)
    · rw [List.filter_cons_of_neg, ih h.2 hx]
      simp only [decide_eq_true_eq]
      exact fun e => h.1 (e ▸ List.mem_map_of_mem hx)

theorem sum_toFinset {α : Type*} {f : α → ℚ} {l : List α} (h : (l.map f).Nodup) (g : ℚ → ℝ) :
    ∑ J ∈ (l.map f).toFinset, g J = (l.map fun x => g (f x)).sum := by
  rw [List.sum_toFinset g h, List.map_map]
  rfl

theorem sums_eq {as : List Assigned} {bs : List Coupled} (h : List.Forall₂ Same as bs) {f : Assigned → ℝ}
    {g : Coupled → ℝ} (hfg : ∀ a ∈ as, ∀ b ∈ bs, Same a b → f a = g b) : (as.map f).sum = (bs.map g).sum := by
  induction h with
  | nil => rfl
  | cons h1 _ ih =>
    simp only [List.map_cons, List.sum_cons]
    rw [hfg _ (by simp) _ (by simp) h1, ih fun a ha b hb => hfg a (by simp [ha]) b (by simp [hb])]

/-- The contributions of a partial wave. -/
theorem wave {as : List Assigned} {bs : List Coupled} (h : List.Forall₂ Same as bs) (spin : ℚ)
    (hn : (as.map Assigned.J).Nodup) (hp : 0 < w.p) (hs : w.s = 0) (hl : w.l = 0) :
    multiElastic spin E w as = coupledElastic spin E ⟨w.l, w.p, w.φ⟩ bs ∧
    singleElastic spin E w as = coupledElastic spin E ⟨w.l, w.p, w.φ⟩ bs ∧
    captureSum spin E w as = coupledCapture spin E ⟨w.l, w.p, w.φ⟩ bs ∧
    fissionSum spin E w as = coupledFission spin E ⟨w.l, w.p, w.φ⟩ bs := by
  have e : as.map Assigned.J = (bs.map Coupled.J).map fun J => |J| := by
    clear hn
    induction h with
    | nil => rfl
    | cons h1 _ ih => simp [h1.J, ih]
  have hm : (bs.map Coupled.J).Nodup := List.Nodup.of_map _ (e ▸ hn)
  have hf : ∀ a ∈ as, as.filter (fun x => x.J = a.J) = [a] := fun a ha => filter_single hn ha
  have hg : ∀ b ∈ bs, bs.filter (fun x => x.J = b.J) = [b] := fun b hb => filter_single hm hb
  have hc : ∀ b ∈ bs, collisionOf E ⟨w.l, w.p, w.φ⟩ bs b.J = reichMooreCollision w.φ E [b.level w.p] := by
    intro b hb
    rw [collisionOf, hg b hb]
    rfl
  have hfac : (as.map fun a => (neutronFactor spin a.J : ℝ)).sum
      = (bs.map fun b => (neutronFactor spin |b.J| : ℝ)).sum := sums_eq h fun a _ b _ hab => by rw [hab.J]
  have hmulti : multiElastic spin E w as = coupledElastic spin E ⟨w.l, w.p, w.φ⟩ bs := by
    unfold multiElastic coupledElastic
    rw [sum_toFinset hn, sum_toFinset hn, sum_toFinset hm, sum_toFinset hm, hfac]
    congr 1
    refine sums_eq h fun a ha b hb hab => ?_
    rw [hf a ha, hc b hb, hab.J, (hab.row hp hs).2.1]
    rfl
  refine ⟨hmulti, ?_, ?_, ?_⟩
  · rw [← hmulti, multiElastic, singleElastic, sum_toFinset hn, sum_toFinset hn, hl]
    have : (as.map fun r => (neutronFactor spin r.J : ℝ) * r.parameters.elasticTerm E w.p w.q w.s w.φ).sum
        = (as.map fun x => (neutronFactor spin x.J : ℝ) * normSq (1 - levelCollision w.φ E
            ((as.filter fun r => r.J = x.J).map fun r => r.level w))).sum
          - (as.map fun x => (neutronFactor spin x.J : ℝ)).sum * (4 * Real.sin w.φ ^ 2) := by
      rw [eq_sub_iff_add_eq, ← List.sum_map_mul_right, ← List.sum_map_add]
      refine congrArg List.sum (List.map_congr_left fun a ha => ?_)
      obtain ⟨b, hb, hab⟩ : ∃ b ∈ bs, Same a b := by
        clear * - h ha
        induction h with
        | nil => simp at ha
        | cons h1 _ ih =>
          rcases List.mem_cons.mp ha with rfl | ha
          · exact ⟨_, by simp, h1⟩
          · obtain ⟨b, hb, hab⟩ := ih ha
            exact ⟨b, by simp [hb], hab⟩
      rw [elasticTerm_eq (hab.row hp hs).1, hf a ha]
      simp only [List.map_cons, List.map_nil, Assigned.level]
      ring
    rw [this]
    push_cast
    ring
  · unfold captureSum coupledCapture
    rw [sum_toFinset hm]
    refine sums_eq h fun a ha b hb hab => ?_
    rw [hc b hb, hab.J, (hab.row hp hs).2.2.2]
  · unfold fissionSum coupledFission
    rw [sum_toFinset hm]
    refine sums_eq h fun a ha b hb hab => ?_
    rw [hc b hb, hab.J, (hab.row hp hs).2.2.1]

end Verif.Isolated
