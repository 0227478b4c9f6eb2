import Verif.Spec.Formats
import Verif.Lemmas.ReichMooreSystem
import Mathlib.Tactic.FinCases

/-!
# Lemmas on evaluations in two formats
-/

namespace Verif.Formats

open Spec Complex Endf

/-! ## The collision matrix -/

/-- `(1 - i √P R √P)⁻¹ = 1 + i T`. -/
theorem inverse_of_T {n : ℕ} (R : Matrix (Fin n) (Fin n) ℂ) (L D : Fin n → ℂ)
    (h : ∀ i c, R i c * L c = R i c * (I * (D c * D c)))
    (hdet : (1 - R * Matrix.diagonal L).det ≠ 0) :
    (1 - I • (Matrix.diagonal D * R * Matrix.diagonal D))⁻¹
      = 1 + I • (Matrix.diagonal D * ((1 - R * Matrix.diagonal L)⁻¹ * R) * Matrix.diagonal D) := by
  have e1 : R * Matrix.diagonal L = I • (R * Matrix.diagonal D * Matrix.diagonal D) := by
    ext i c
    rw [Matrix.smul_apply, Matrix.mul_diagonal, Matrix.mul_diagonal, Matrix.mul_diagonal, h, smul_eq_mul]
    ring
  have hinv : (1 - R * Matrix.diagonal L) * (1 - R * Matrix.diagonal L)⁻¹ = 1 :=
    Matrix.mul_nonsing_inv _ (isUnit_iff_ne_zero.mpr hdet)
  refine Matrix.inv_eq_right_inv ?_
  generalize hX : (1 - R * Matrix.diagonal L)⁻¹ = X at hinv ⊢
  have e2 : (1 - I • (Matrix.diagonal D * R * Matrix.diagonal D)) * Matrix.diagonal D
      = Matrix.diagonal D * (1 - R * Matrix.diagonal L) := by
    rw [e1, Matrix.sub_mul, Matrix.mul_sub, Matrix.one_mul, Matrix.mul_one, Matrix.smul_mul, Matrix.mul_smul]
    simp only [Matrix.mul_assoc]
  have e3 : (1 - I • (Matrix.diagonal D * R * Matrix.diagonal D)) * (Matrix.diagonal D * (X * R)
      * Matrix.diagonal D) = Matrix.diagonal D * R * Matrix.diagonal D := by
    calc _ = (1 - I • (Matrix.diagonal D * R * Matrix.diagonal D)) * Matrix.diagonal D * (X * R)
          * Matrix.diagonal D := by simp only [Matrix.mul_assoc]
      _ = Matrix.diagonal D * ((1 - R * Matrix.diagonal L) * X) * R * Matrix.diagonal D := by
        rw [e2]
        simp only [Matrix.mul_assoc]
      _ = _ := by rw [hinv, Matrix.mul_one]
  rw [Matrix.mul_add, Matrix.mul_one, Matrix.mul_smul, e3, sub_add_cancel]

/-- Capture, elastic scattering and fission are in a different order in the two formats. -/
def order : Fin 3 ≃ Fin 3 := finRotate 3

theorem order_zero : order 0 = 1 := rfl
theorem order_one : order 1 = 2 := rfl
theorem order_two : order 2 = 0 := rfl

/-- The collision matrix of the Reich-Moore formula in terms of `R`. -/
theorem reichMoore_collision {E φ : ℝ} {levels : List CoupledLevel} (R : Matrix (Fin 3) (Fin 3) ℂ)
    (L : Fin 3 → ℂ) (P : Fin 3 → ℝ)
    (h : ∀ i c, R i c * L c = R i c * (I * ((Real.sqrt (P c) : ℂ) * Real.sqrt (P c))))
    (hdet : (1 - R * Matrix.diagonal L).det ≠ 0)
    (hK : ∀ i j, reichMooreK E levels i j
      = I * (Real.sqrt (P (order i)) * R (order i) (order j) * Real.sqrt (P (order j)))) (i j : Fin 3) :
    reichMooreCollision φ E levels i j = exp (-(2 * I * φ)) * ((if order i = order j then 1 else 0) + 2 * I *
      ((Real.sqrt (P (order i)) : ℂ) * ((1 - R * Matrix.diagonal L)⁻¹ * R) (order i) (order j)
        * Real.sqrt (P (order j)))) := by
  have e1 : 1 - reichMooreK E levels = (1 - I • (Matrix.diagonal (fun c => (Real.sqrt (P c) : ℂ)) * R
      * Matrix.diagonal fun c => (Real.sqrt (P c) : ℂ))).submatrix order order := by
    ext a b
    rw [Matrix.sub_apply, hK, Matrix.submatrix_apply, Matrix.sub_apply, Matrix.smul_apply,
      Matrix.mul_diagonal, Matrix.diagonal_mul, smul_eq_mul, Matrix.one_apply, Matrix.one_apply]
    simp only [order.injective.eq_iff]
  unfold reichMooreCollision
  rw [e1, Matrix.inv_submatrix_equiv, inverse_of_T R L _ h hdet]
  simp only [Matrix.smul_apply, Matrix.sub_apply, Matrix.submatrix_apply, Matrix.add_apply,
    Matrix.mul_diagonal, Matrix.diagonal_mul, Matrix.one_apply, order.injective.eq_iff, smul_eq_mul]
  split <;> ring

/-! ## Wave numbers and widths -/

theorem waveNumber {K : Constants} {c : Channel} {m A q E : ℝ} (hm : 0 < m) (hA : 0 < A)
    (h1 : c.pair.reducedMass = m * (A * m) / (m + A * m)) (h2 : c.incident.massRatio = A * m / (m + A * m))
    (hq : c.q = q) (h0 : q = 0) :
    channelWave K c E = neutronWaveNumber (waveConstant K.hbar m) A E := by
  unfold channelWave neutronWaveNumber waveConstant
  have h3 : m * (A * m) / (m + A * m) = m * (A / (A + 1)) := by
    field_simp
    ring
  have h4 : A * m / (m + A * m) = A / (A + 1) := by
    field_simp
    ring
  have h5 : 0 < A / (A + 1) := by positivity
  rw [h1, h2, hq, h0, h3, h4, add_zero, abs_mul, abs_of_pos h5,
    show 2 * (m * (A / (A + 1))) * (A / (A + 1) * |E|) = 2 * m * ((A / (A + 1)) ^ 2 * |E|) by ring,
    Real.sqrt_mul (by positivity) ((A / (A + 1)) ^ 2 * |E|), Real.sqrt_mul (by positivity) |E|,
    Real.sqrt_sq h5.le]
  ring

theorem reduced_fission {G γ : ℝ} (h : ReducedWidth G 1 γ) : fissionAmplitude G = Real.sqrt 2 * γ := by
  obtain ⟨h1, h2, h3⟩ := h
  have h4 : |G| = (Real.sqrt 2 * γ) ^ 2 := by
    rw [mul_pow, Real.sq_sqrt (by norm_num), ← h1]
    ring
  unfold fissionAmplitude
  split
  · rename_i hG
    have hγ := h3.mpr hG
    have : Real.sqrt 2 * γ ≤ 0 := mul_nonpos_of_nonneg_of_nonpos (Real.sqrt_nonneg _) hγ.le
    rw [← abs_of_neg hG, h4, Real.sqrt_sq_eq_abs, abs_of_nonpos this, neg_neg]
  · rename_i hG
    have hγ : 0 ≤ γ := not_lt.mp fun h => hG (h3.mp h)
    have : 0 ≤ Real.sqrt 2 * γ := mul_nonneg (Real.sqrt_nonneg _) hγ
    rw [← abs_of_nonneg (not_lt.mp hG), h4, Real.sqrt_sq this]

theorem reduced_elastic {G P γ p : ℝ} (hG : 0 ≤ G) (hP : P ≠ 0) (h : ReducedWidth G P γ) :
    Real.sqrt (G * p / P) = Real.sqrt 2 * (Real.sqrt p * γ) := by
  obtain ⟨h1, -, h3⟩ := h
  have hγ : 0 ≤ γ := not_lt.mp fun h => (h3.mp h).not_ge hG
  rw [abs_of_nonneg hG] at h1
  have h2 : G * p / P = 2 * (γ ^ 2 * p) := by
    rw [← h1]
    field_simp
  rw [h2, Real.sqrt_mul (by norm_num), Real.sqrt_mul (by positivity), Real.sqrt_sq hγ]
  ring

/-! ## A spin group -/

/-- A resonance and its parameters, for the wave number `k` and channel radius `a`. -/
structure Described (k : ℝ → ℝ) (a : ℝ) (l : ℕ) (r : ReichMooreResonance) (v : Coupled) : Prop where
  energy : v.energy = r.energy
  elastic : v.elastic = r.neutronWidth
  capture : v.capture = r.gammaWidth
  fissionA : v.fissionA = r.firstFissionWidth
  fissionB : v.fissionB = r.secondFissionWidth
  penetrability : v.penetrability = (hardSphere (k r.energy * a) l).1
  finite : v.penetrability ≠ 0
  positive : 0 ≤ r.neutronWidth ∧ 0 ≤ r.gammaWidth
  one : r.secondFissionWidth = 0

theorem normSq_phase (φ : ℝ) : normSq (exp (I * (((0 : ℝ) : ℂ) - φ))) = 1 := by
  rw [normSq_eq_norm_sq, show I * (((0 : ℝ) : ℂ) - φ) = ((-φ : ℝ) : ℂ) * I by push_cast; ring,
    norm_exp_ofReal_mul_I]
  norm_num

theorem type_unique {pair : ParticlePair} {mt : ℤ} {t t' : ChannelType} (h : IsType pair mt t)
    (h' : IsType pair mt t') : t = t' := by
  cases h <;> cases h' <;> first
    | rfl
    | (exfalso; simp_all; done)
    | (exfalso; linarith)

theorem forall₂_join {α β γ : Type*} {R : α → β → Prop} {S : α → γ → Prop} {Q : β → γ → Prop} {as : List α}
    {bs : List β} {cs : List γ} (h1 : List.Forall₂ R as bs) (h2 : List.Forall₂ S as cs)
    (h : ∀ a b c, c ∈ cs → R a b → S a c → Q b c) : List.Forall₂ Q bs cs := by
  induction h1 generalizing cs with
  | nil => cases h2; exact .nil
  | cons h3 _ ih =>
    cases h2 with
    | cons h4 h5 =>
      exact .cons (h _ _ _ List.mem_cons_self h3 h4)
        (ih h5 fun a b c hc => h a b c (List.mem_cons_of_mem _ hc))

/-- The matrix K of the Reich-Moore formula in terms of `R`. -/
theorem reichMooreK_eq {G : RGroup} {E s s' : ℝ} {i j : Fin 3} {c c' : Fin G.n} {vs : List CoupledLevel}
    {levels : List (RLevel G.n)}
    (h : List.Forall₂ (fun (r : CoupledLevel) (v : RLevel G.n) => r.energy = v.energy ∧
      r.capture / 2 = G.captureHalf v ∧ r.amplitude i = Real.sqrt 2 * (s * G.amplitude E v c) ∧
      r.amplitude j = Real.sqrt 2 * (s' * G.amplitude E v c')) vs levels) :
    (vs.map fun r => I / 2 * (r.amplitude i * r.amplitude j)
        / ((r.energy : ℂ) - E - I * r.capture / 2)).sum
      = I * (s * (levels.map fun v => (G.amplitude E v c : ℂ) * G.amplitude E v c'
        / ((v.energy : ℂ) - E - I * G.captureHalf v)).sum * s') := by
  induction h with
  | nil => simp
  | @cons r v _ _ h1 _ ih =>
    obtain ⟨e1, e2, e3, e4⟩ := h1
    rw [List.map_cons, List.sum_cons, ih, List.map_cons, List.sum_cons, e1, ← e2, e3, e4]
    have e5 : (Real.sqrt 2 : ℂ) * Real.sqrt 2 = 2 := by
      rw [← ofReal_mul, Real.mul_self_sqrt (by norm_num)]
      norm_num
    have e6 : I / 2 * (((Real.sqrt 2 * (s * G.amplitude E v c) : ℝ) : ℂ)
        * ((Real.sqrt 2 * (s' * G.amplitude E v c') : ℝ) : ℂ))
        = I * (s * (G.amplitude E v c * G.amplitude E v c') * s') := by
      push_cast
      linear_combination (I / 2 * (s * G.amplitude E v c) * (s' * G.amplitude E v c')) * e5
    rw [e6]
    push_cast
    ring

section

variable {K : Constants} {lib : CoulombLibrary} {reactions : ReactionLibrary}
  {neutronMass elementaryCharge A E : ℝ} {incident target : Str} {x : Supplement} {p : ReichMoore} {naps : ℤ}
  {pc pe pf : ParticlePair} {l : ℕ} {J : ℚ} {g : RGroup} {w : CoupledWave} {as : List Coupled}

theorem group_values (hm : 0 < neutronMass) (hA : 0 < A) (hE : 0 < E) (hq : 0 ≤ x.qFission)
    (hpe : IsPair reactions neutronMass elementaryCharge incident target
      ⟨1, A, 0, x.charge, 1 / 2, 0, 0, 1, 0, 0, 2⟩ pe)
    (hids : [pc.id, pe.id, pf.id].Nodup)
    (h : IsRGroup K lib pe [pc, pe, pf] (asRMatrixLimited neutronMass A naps x p) E
      (rmlGroup (A * neutronMass) naps p (l, J)) g)
    (hp : w.p = (hardSphere (neutronWaveNumber (waveConstant K.hbar neutronMass) A E
      * channelLength (A * neutronMass) naps p l) l).1)
    (hφ : exp (2 * I * w.φ) = hardSpherePhase (neutronWaveNumber (waveConstant K.hbar neutronMass) A E
      * scatteringLength p l) l)
    (has : List.Forall₂ (Described (neutronWaveNumber (waveConstant K.hbar neutronMass) A)
      (channelLength (A * neutronMass) naps p l) l) (resonancesOf p l J) (as.filter fun a => a.J = J)) :
    g.into K E pe.id = normSq (1 - collisionOf E w as J 0 0) ∧
    g.into K E pf.id = normSq (collisionOf E w as J 0 1) + normSq (collisionOf E w as J 0 2) ∧
    (∀ out, out ≠ pe.id → out ≠ pf.id → g.into K E out = 0) ∧
    g.capture K E = 1 - ∑ j, normSq (collisionOf E w as J 0 j) := by
  classical
  obtain ⟨n, ch, elim, own, P, S, φ, levels⟩ := g
  have hn : n = 3 := by
    have := h.channels.length_eq
    simpa [rmlGroup] using this.symm
  subst hn
  have hchannels := h.channels
  simp only [rmlGroup, List.ofFn_succ, List.ofFn_zero, List.forall₂_cons, List.forall₂_nil_left_iff, and_true]
    at hchannels
  obtain ⟨c0, c1, c2⟩ := hchannels
  have c1 : IsChannel pe [pc, pe, pf] (asRMatrixLimited neutronMass A naps x p).pairs ((-1) ^ l * J) 0
      ⟨2, l, 1 / 2, 0, channelLength (A * neutronMass) naps p l, scatteringLength p l⟩ (ch 1) := c1
  have c2 : IsChannel pe [pc, pe, pf] (asRMatrixLimited neutronMass A naps x p).pairs ((-1) ^ l * J) 0
      ⟨3, 0, 0, 0, 0, 0⟩ (ch 2) := c2
  have p0 : pc = (ch 0).pair := Option.some.inj c0.pair
  have p1 : pe = (ch 1).pair := Option.some.inj c1.pair
  have p2 : pf = (ch 2).pair := Option.some.inj c2.pair
  -- the types
  have t0 : (ch 0).type = .photon := by
    obtain ⟨row, e, -, ht⟩ := c0.reaction
    obtain rfl := Option.some.inj e
    exact type_unique ht .capture
  have t1 : (ch 1).type = .neutron ∧ (ch 1).q = 0 := by
    obtain ⟨row, e, hq1, ht⟩ := c1.reaction
    obtain rfl := Option.some.inj e
    refine ⟨type_unique ht (.neutral (by simp) ?_), hq1⟩
    rw [← p1, hpe.charges.1, zero_mul]
  have t2 : (ch 2).type = .fission ∧ (ch 2).q = x.qFission := by
    obtain ⟨row, e, hq1, ht⟩ := c2.reaction
    obtain rfl := Option.some.inj e
    exact ⟨type_unique ht (.fission (by simp)), hq1⟩
  have f0 := h.flags 0 _ _ rfl rfl
  have f1 := h.flags 1 _ _ rfl rfl
  have f2 := h.flags 2 _ _ rfl rfl
  have f1 : ¬ elim 1 ∧ own 1 := ⟨fun e => absurd (f1.1.mp e) (by simp), f1.2.mpr rfl⟩
  have f2 : ¬ elim 2 ∧ own 2 := ⟨fun e => absurd (f2.1.mp e) (by simp), f2.2.mpr rfl⟩
  have f0 : elim 0 ∧ own 0 := ⟨f0.1.mpr rfl, f0.2.mpr rfl⟩
  have hratio : pe.massRatio = A * neutronMass / (neutronMass + A * neutronMass) := by
    rw [hpe.ratio, hpe.masses.1, hpe.masses.2, one_mul]
  have hreduced : pe.reducedMass = neutronMass * (A * neutronMass) / (neutronMass + A * neutronMass) := by
    rw [hpe.reduced, hpe.masses.1, hpe.masses.2, one_mul]
  have hpos : 0 < pe.massRatio := by
    rw [hratio]
    positivity
  have hwave : ∀ e, channelWave K (ch 1) e = neutronWaveNumber (waveConstant K.hbar neutronMass) A e :=
    fun e => waveNumber hm hA (p1 ▸ hreduced) (c1.incident ▸ hratio) t1.2 rfl
  set G : RGroup := ⟨3, ch, elim, own, P, S, φ, levels⟩ with hG
  have i0 : ¬ G.isIncident 0 := by
    intro e
    have e : (ch 0).pair.id = (ch 0).incident.id := e
    rw [← p0, c0.incident] at e
    simp [e] at hids
  have i1 : G.isIncident 1 := by
    show (ch 1).pair.id = (ch 1).incident.id
    rw [← p1, c1.incident]
  have i2 : ¬ G.isIncident 2 := by
    intro e
    have e : (ch 2).pair.id = (ch 2).incident.id := e
    rw [← p2, c2.incident] at e
    simp [e] at hids
  -- amplitudes
  have a0 : ∀ v : RLevel 3, G.amplitude E v (0 : Fin 3) = 0 := fun v => if_pos (.inl f0.1)
  have a1 : ∀ v : RLevel 3, G.amplitude E v (1 : Fin 3) = v.width 1 := by
    refine fun v => if_neg ?_
    rintro (e | e)
    · exact f1.1 e
    · have e : (ch 1).incident.massRatio * E + (ch 1).q < 0 := e
      rw [c1.incident, t1.2] at e
      nlinarith
  have a2 : ∀ v : RLevel 3, G.amplitude E v (2 : Fin 3) = v.width 2 := by
    refine fun v => if_neg ?_
    rintro (e | e)
    · exact f2.1 e
    · have e : (ch 2).incident.massRatio * E + (ch 2).q < 0 := e
      rw [c2.incident, t2.2] at e
      nlinarith
  have ah : ∀ v : RLevel 3, G.captureHalf v = v.width 0 ^ 2 := by
    intro v
    refine (Fin.sum_univ_three _).trans ?_
    rw [if_pos (show G.eliminated (0 : Fin 3) from f0.1), if_neg (show ¬ G.eliminated (1 : Fin 3) from f1.1),
      if_neg (show ¬ G.eliminated (2 : Fin 3) from f2.1), add_zero, add_zero]
  -- penetrabilities and phases
  have n1 := h.penetrability (1 : Fin 3) ⟨f1.1, .inl i1⟩
  have P1 : 0 ≤ P 1 ∧ P 1 = w.p := by
    refine ⟨n1.1, ?_⟩
    have := n1.2
    unfold PenetrabilityAt at this
    rw [show (G.channel (1 : Fin 3)).type = .neutron from t1.1] at this
    obtain ⟨-, a, r1, r2⟩ := this
    have r1 : (ch 1).radii.penetrability E = .ok a := r1
    rw [(c1.radii E).1] at r1
    obtain rfl := Except.ok.inj r1
    refine Eq.trans r2 ?_
    rw [hp]
    show (hardSphere (channelWave K (ch 1) E * channelLength (A * neutronMass) naps p l) (ch 1).numbers.l).1 = _
    rw [hwave, c1.l]
  have φ1 : exp (2 * I * φ 1) = exp (2 * I * w.φ) := by
    have := h.phase (1 : Fin 3) ⟨f1.1, .inl i1⟩
    unfold PhaseAt at this
    rw [show (G.channel (1 : Fin 3)).type = .neutron from t1.1] at this
    obtain ⟨a, r1, r2⟩ := this
    have r1 : (ch 1).radii.phaseShift E = .ok a := r1
    rw [(c1.radii E).2.2] at r1
    obtain rfl := Except.ok.inj r1
    refine Eq.trans r2 ?_
    rw [hφ]
    show hardSpherePhase (channelWave K (ch 1) E * scatteringLength p l) (ch 1).numbers.l = _
    rw [hwave, c1.l]
  have P2 : (0 ≤ P 2 ∧ P 2 = 1) ∨ ∀ v ∈ levels, v.width 2 = 0 := by
    by_cases hv : ∃ v ∈ levels, v.width 2 ≠ 0
    · obtain ⟨n2, n3⟩ := h.penetrability (2 : Fin 3) ⟨f2.1, .inr hv⟩
      unfold PenetrabilityAt at n3
      rw [show (G.channel (2 : Fin 3)).type = .fission from t2.1] at n3
      exact .inl ⟨n2, n3⟩
    · push Not at hv
      exact .inr hv
  have P2w : ∀ v ∈ levels, Real.sqrt (P 2) * v.width 2 = v.width 2 := by
    intro v hv
    rcases P2 with ⟨-, e⟩ | e
    · rw [e, Real.sqrt_one, one_mul]
    · rw [e v hv, mul_zero]
  -- levels
  have hQ : List.Forall₂ (fun (r : CoupledLevel) (v : RLevel 3) => r.energy = v.energy ∧
      r.capture / 2 = G.captureHalf v ∧ ∀ i : Fin 3, r.amplitude i
        = Real.sqrt 2 * (Real.sqrt (P (order i)) * G.amplitude E v (order i)))
      ((as.filter fun a => a.J = J).map (Coupled.level w.p)) levels := by
    rw [List.forall₂_map_left_iff]
    have hl := h.levels
    simp only [rmlGroup, List.forall₂_map_left_iff] at hl
    refine forall₂_join has hl ?_
    rintro r a v hv hd ⟨hv1, hv2⟩
    have w0 : 2 * v.width 0 ^ 2 = r.gammaWidth := by
      obtain ⟨width, e, hw⟩ := hv2 (0 : Fin 3)
      obtain rfl := Option.some.inj e
      unfold IsRWidth at hw
      rw [if_neg (by simp [asRMatrixLimited])] at hw
      split at hw
      · rename_i hz
        have hw : v.width 0 = 0 := hw
        rw [hw, hz]
        norm_num
      · obtain ⟨P', r1, -, r2⟩ := hw
        unfold PenetrabilityAt at r1
        rw [show (G.channel (0 : Fin 3)).type = .photon from t0] at r1
        have r1 : P' = 1 := r1
        have r2 := r2.1
        rw [abs_of_nonneg hd.positive.2, r1, mul_one] at r2
        exact r2
    have w1 : Real.sqrt (r.neutronWidth * w.p / a.penetrability)
        = Real.sqrt 2 * (Real.sqrt w.p * v.width 1) := by
      obtain ⟨width, e, hw⟩ := hv2 (1 : Fin 3)
      obtain rfl := Option.some.inj e
      unfold IsRWidth at hw
      rw [if_neg (by simp [asRMatrixLimited])] at hw
      split at hw
      · rename_i hz
        have hw : v.width 1 = 0 := hw
        rw [hw, hz]
        simp
      · obtain ⟨P', r1, r0, r2⟩ := hw
        unfold PenetrabilityAt at r1
        rw [show (G.channel (1 : Fin 3)).type = .neutron from t1.1] at r1
        obtain ⟨-, radius, r3, r4⟩ := r1
        have r3 : (ch 1).radii.penetrability r.energy = .ok radius := r3
        rw [(c1.radii r.energy).1] at r3
        obtain rfl := Except.ok.inj r3
        have r4 : P' = (hardSphere (channelWave K (ch 1) r.energy
          * channelLength (A * neutronMass) naps p l) (ch 1).numbers.l).1 := r4
        rw [hwave, c1.l] at r4
        have r5 : a.penetrability = P' := hd.penetrability.trans r4.symm
        rw [r5]
        exact reduced_elastic hd.positive.1 r0 r2
    have w2 : fissionAmplitude r.firstFissionWidth = Real.sqrt 2 * v.width 2 := by
      obtain ⟨width, e, hw⟩ := hv2 (2 : Fin 3)
      obtain rfl := Option.some.inj e
      unfold IsRWidth at hw
      rw [if_neg (by simp [asRMatrixLimited])] at hw
      split at hw
      · rename_i hz
        have hw : v.width 2 = 0 := hw
        rw [hw, hz]
        simp [fissionAmplitude]
      · obtain ⟨P', r1, -, r2⟩ := hw
        unfold PenetrabilityAt at r1
        rw [show (G.channel (2 : Fin 3)).type = .fission from t2.1] at r1
        have r1 : P' = 1 := r1
        rw [r1] at r2
        exact reduced_fission r2
    refine ⟨hd.energy.trans hv1.symm, ?_, ?_⟩
    · show a.capture / 2 = _
      rw [ah, hd.capture, ← w0]
      ring
    · intro i
      fin_cases i
      · show Real.sqrt (a.elastic * w.p / a.penetrability) = Real.sqrt 2 * (Real.sqrt (P 1)
          * G.amplitude E v (1 : Fin 3))
        rw [a1, P1.2, hd.elastic, w1]
      · show fissionAmplitude a.fissionA = Real.sqrt 2 * (Real.sqrt (P 2) * G.amplitude E v (2 : Fin 3))
        rw [a2, P2w v hv, hd.fissionA, w2]
      · show fissionAmplitude a.fissionB = Real.sqrt 2 * (Real.sqrt (P 0) * G.amplitude E v (0 : Fin 3))
        rw [a0, hd.fissionB, hd.one]
        simp [fissionAmplitude]
  have hK : ∀ i j, reichMooreK E ((as.filter fun a => a.J = J).map (Coupled.level w.p)) i j
      = I * (Real.sqrt (P (order i)) * G.R E (order i) (order j) * Real.sqrt (P (order j))) := by
    intro i j
    exact reichMooreK_eq (G := G) (hQ.imp fun r v hv => ⟨hv.1, hv.2.1, hv.2.2 i, hv.2.2 j⟩)
  have R0 : ∀ i : Fin 3, G.R E i (0 : Fin 3) = 0 := by
    intro i
    refine List.sum_eq_zero fun y hy => ?_
    obtain ⟨v, -, rfl⟩ := List.mem_map.mp hy
    rw [a0]
    simp
  have hL : ∀ i c : Fin 3, G.R E i c * G.L c
      = G.R E i c * (I * ((Real.sqrt (P c) : ℂ) * Real.sqrt (P c))) := by
    intro i c
    have key : ∀ c : Fin 3, own c → 0 ≤ P c → G.L c = I * ((Real.sqrt (P c) : ℂ) * Real.sqrt (P c)) := by
      intro c hc hP
      unfold RGroup.L
      rw [if_pos (show G.own c from hc), zero_add, ← ofReal_mul, Real.mul_self_sqrt hP]
    fin_cases c
    · show G.R E i (0 : Fin 3) * _ = G.R E i (0 : Fin 3) * _
      rw [R0, zero_mul, zero_mul]
    · show G.R E i (1 : Fin 3) * G.L (1 : Fin 3) = _
      rw [key 1 f1.2 P1.1]
      rfl
    · show G.R E i (2 : Fin 3) * G.L (2 : Fin 3) = _
      rcases P2 with e | e
      · rw [key 2 f2.2 e.1]
        rfl
      · have R2 : G.R E i (2 : Fin 3) = 0 := by
          refine List.sum_eq_zero fun y hy => ?_
          obtain ⟨v, hv, rfl⟩ := List.mem_map.mp hy
          rw [a2, e v hv]
          simp
        rw [R2, zero_mul]
        exact (mul_eq_zero_of_left R2 _).symm
  have hC : ∀ i j, collisionOf E w as J i j = exp (-(2 * I * w.φ))
      * ((if order i = order j then 1 else 0) + 2 * I * G.T E (order i) (order j)) :=
    fun i j => reichMoore_collision (G.R E) G.L P hL h.finite.2 hK i j
  have T0 : G.T E (1 : Fin 3) (0 : Fin 3) = 0 := by
    show (Real.sqrt (P 1) : ℂ) * ((1 - G.R E * Matrix.diagonal G.L)⁻¹ * G.R E) (1 : Fin 3) (0 : Fin 3)
      * (Real.sqrt (P 0) : ℂ) = 0
    rw [Matrix.mul_apply, Finset.sum_eq_zero fun k _ => by rw [R0 k, mul_zero]]
    simp
  have hU : ∀ j : Fin 3, G.U K E (1 : Fin 3) j = exp (I * (((0 : ℝ) : ℂ) - φ 1))
      * ((if (1 : Fin 3) = j then 1 else 0) + 2 * I * G.T E (1 : Fin 3) j)
      * exp (I * (((0 : ℝ) : ℂ) - φ j)) := by
    intro j
    have hc : ∀ j : Fin 3, coulombAt K (ch j) E = 0 := by
      intro j
      refine if_neg ?_
      fin_cases j
      · show (ch 0).type ≠ _
        rw [t0]
        simp
      · show (ch 1).type ≠ _
        rw [t1.1]
        simp
      · show (ch 2).type ≠ _
        rw [t2.1]
        simp
    show exp (I * ((coulombAt K (ch 1) E : ℂ) - φ 1)) * ((if (1 : Fin 3) = j then 1 else 0)
      + 2 * I * G.T E (1 : Fin 3) j) * exp (I * ((coulombAt K (ch j) E : ℂ) - φ j)) = _
    rw [hc, hc]
  have hw0 : exp (2 * I * coulombAt K (ch 1) E) = 1 := by
    have : coulombAt K (ch 1) E = 0 := if_neg (by rw [t1.1]; simp)
    rw [this]
    simp
  have hphase : exp (I * (((0 : ℝ) : ℂ) - φ 1)) * exp (I * (((0 : ℝ) : ℂ) - φ 1)) = exp (-(2 * I * w.φ)) := by
    rw [exp_neg, ← φ1, ← exp_neg, ← exp_add]
    congr 1
    push_cast
    ring
  have U1 : G.U K E (1 : Fin 3) (1 : Fin 3) = collisionOf E w as J 0 0 := by
    rw [hU, hC, ← hphase]
    simp only [order_zero, if_true]
    ring
  have hn1 : normSq (exp (-(2 * I * w.φ))) = 1 := by
    rw [← hphase, map_mul, normSq_phase, one_mul]
  have U2 : normSq (G.U K E (1 : Fin 3) (2 : Fin 3)) = normSq (collisionOf E w as J 0 1) := by
    rw [hU, hC, map_mul, map_mul, map_mul, normSq_phase, normSq_phase, hn1]
    simp only [order_zero, order_one, one_mul, mul_one]
    rfl
  have U0 : G.U K E (1 : Fin 3) (0 : Fin 3) = 0 := by
    rw [hU, T0]
    simp
  have C2 : collisionOf E w as J 0 2 = 0 := by
    rw [hC, order_zero, order_two, T0]
    simp
  have into_eq : ∀ out, G.into K E out = ((if pc.id = out then normSq (G.U K E (1 : Fin 3) (0 : Fin 3)) else 0)
      + (if pe.id = out then normSq (1 - G.U K E (1 : Fin 3) (1 : Fin 3)) else 0)
      + if pf.id = out then normSq (G.U K E (1 : Fin 3) (2 : Fin 3)) else 0) := by
    intro out
    refine (Fin.sum_univ_three _).trans ?_
    rw [if_neg (show ¬ G.isIncident (0 : Fin 3) from i0), if_pos (show G.isIncident (1 : Fin 3) from i1),
      if_neg (show ¬ G.isIncident (2 : Fin 3) from i2), add_zero, zero_add]
    refine (Fin.sum_univ_three _).trans ?_
    show ((if (ch 0).pair.id = out then normSq ((if (1 : Fin 3) = 0 then exp (2 * I * coulombAt K (ch 1) E)
        else 0) - G.U K E (1 : Fin 3) (0 : Fin 3)) else 0)
      + (if (ch 1).pair.id = out then normSq ((if (1 : Fin 3) = 1 then exp (2 * I * coulombAt K (ch 1) E)
        else 0) - G.U K E (1 : Fin 3) (1 : Fin 3)) else 0)
      + if (ch 2).pair.id = out then normSq ((if (1 : Fin 3) = 2 then exp (2 * I * coulombAt K (ch 1) E)
        else 0) - G.U K E (1 : Fin 3) (2 : Fin 3)) else 0) = _
    rw [← p0, ← p1, ← p2, hw0, if_neg (show ¬ (1 : Fin 3) = 0 by decide), if_pos rfl,
      if_neg (show ¬ (1 : Fin 3) = 2 by decide), zero_sub, zero_sub, normSq_neg, normSq_neg]
  simp only [List.nodup_cons, List.mem_cons, List.not_mem_nil, or_false, not_or] at hids
  refine ⟨?_, ?_, ?_, ?_⟩
  · rw [into_eq, if_neg hids.1.1, if_pos rfl, if_neg (Ne.symm hids.2.1), U1]
    ring
  · rw [into_eq, if_neg hids.1.2, if_neg hids.2.1, if_pos rfl, U2, C2, map_zero]
    ring
  · intro out h1 h2
    rw [into_eq, if_neg (Ne.symm h1), if_neg (Ne.symm h2), U0, map_zero]
    simp
  · refine (Fin.sum_univ_three _).trans ?_
    rw [if_neg (show ¬ G.isIncident (0 : Fin 3) from i0), if_pos (show G.isIncident (1 : Fin 3) from i1),
      if_neg (show ¬ G.isIncident (2 : Fin 3) from i2), add_zero, zero_add]
    have : ∑ c', normSq (G.U K E (1 : Fin 3) c') = normSq (G.U K E (1 : Fin 3) (0 : Fin 3))
      + normSq (G.U K E (1 : Fin 3) (1 : Fin 3)) + normSq (G.U K E (1 : Fin 3) (2 : Fin 3)) :=
      Fin.sum_univ_three _
    rw [this, Fin.sum_univ_three, U0, U1, U2, C2, map_zero]
    ring

end

end Verif.Formats
