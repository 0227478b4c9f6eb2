import Verif.Lemmas.ReichMooreCells
import Verif.Spec.ReichMooreRange
import Verif.Props.BreitWignerRange

/-!
# The cross sections of the cells of a Reich-Moore evaluation
-/

namespace Verif.Endf

open Spec Blocks Complex

variable {K : Constants} {lib : CoulombLibrary} {E neutronMass : ℝ} {incident target : Str}

/-! ## One block -/

/-- The channel values depend on the orbital angular momentum only. -/
theorem elastic_lChannel (pair : ParticlePair) (radii : ChannelRadii) (n : QuantumNumbers) (E : ℝ) :
    (elasticChannel pair radii n).penetrability K lib E = (lChannel pair radii n.l).penetrability K lib E ∧
    (elasticChannel pair radii n).phaseShift K lib E = (lChannel pair radii n.l).phaseShift K lib E ∧
    (elasticChannel pair radii n).waveNumber K E = (lChannel pair radii n.l).waveNumber K E :=
  ⟨rfl, rfl, rfl⟩

/-- The parameters of a resonance for a channel. -/
noncomputable def coupledOf (K : Constants) (lib : CoulombLibrary) (c : Channel) (r : ReichMooreResonance) :
    Coupled :=
  ⟨r.spin, r.energy, r.neutronWidth, r.gammaWidth, r.firstFissionWidth, r.secondFissionWidth,
    okValue (c.penetrability K lib r.energy)⟩

/-- The partial wave of a channel. -/
noncomputable def waveOf (K : Constants) (lib : CoulombLibrary) (E : ℝ) (c : Channel) : CoupledWave :=
  ⟨c.numbers.l, okValue (c.penetrability K lib E), okValue (c.phaseShift K lib E)⟩

theorem toElasticWidth_ok {value P w : ℝ} (h : toElasticWidth value P = .ok w) :
    P ≠ 0 ∧ 0 ≤ |value| / 2 / P ∧
      w = (if value ≥ 0 then 1 else -1) * Real.sqrt (|value| / 2 / P) := by
  unfold toElasticWidth at h
  simp only at h
  split at h
  · cases h
  · rename_i hn
    rw [not_or, not_lt] at hn
    exact ⟨hn.1, hn.2, (Except.ok.inj h).symm⟩

theorem toOtherWidth_sq {value : ℝ} (h : 0 ≤ value) : 2 * toOtherWidth value ^ 2 = value := by
  unfold toOtherWidth
  simp only
  rw [if_pos h, one_mul, Real.sq_sqrt (by positivity), abs_of_nonneg h]
  ring

theorem toOtherWidth_amplitude (value : ℝ) :
    Real.sqrt (2 * 1) * toOtherWidth value = fissionAmplitude value := by
  have key : ∀ x : ℝ, 0 ≤ x → Real.sqrt (2 * 1) * Real.sqrt (x / 2) = Real.sqrt x := by
    intro x _
    rw [← Real.sqrt_mul (by norm_num)]
    congr 1
    ring
  unfold toOtherWidth fissionAmplitude
  simp only
  by_cases h : 0 ≤ value
  · rw [if_pos h, if_neg (not_lt.mpr h), one_mul, abs_of_nonneg h, key _ h]
  · have h' := not_le.mp h
    rw [if_neg h, if_pos h', abs_of_neg h', neg_one_mul, mul_neg, key _ (by linarith)]

theorem Block.width_ok {spin : ℚ} {ap : ℝ} {nro : Option (ℝ → Outcome ℝ)} {naps : ℤ} {b : Block}
    (h : b.Valid K lib neutronMass incident target spin ap nro naps) (hn : b.Numbered)
    {r : ReichMooreResonance} (hr : r ∈ b.current) :
    ∃ P, (lChannel b.pair b.radii b.lvalue.l).penetrability K lib r.energy = .ok P ∧ P ≠ 0 ∧
      0 ≤ |r.neutronWidth| / 2 / P ∧ b.elasticWidth K lib r
        = (if r.neutronWidth ≥ 0 then 1 else -1) * Real.sqrt (|r.neutronWidth| / 2 / P) := by
  obtain ⟨rw, hrw, -⟩ := reichMooreData_ok.mp h.data
  obtain ⟨w, -, hw⟩ := forall₂_mem_left (mapM_ok.mp hrw) hr
  obtain ⟨P, h1, h2⟩ := bind_ok.mp hw
  obtain ⟨k1, k2, k3⟩ := toElasticWidth_ok h2
  refine ⟨P, ?_, k1, k2, ?_⟩
  · rw [← hn.l]
    exact h1
  · rw [← k3]
    exact okValue_ok hw

theorem Block.cell_levels {spin : ℚ} {ap : ℝ} {nro : Option (ℝ → Outcome ℝ)} {naps : ℤ} {b : Block}
    (h : b.Valid K lib neutronMass incident target spin ap nro naps) (hn : b.Numbered)
    (hw : ∀ r ∈ b.lvalue.resonances, 0 ≤ r.neutronWidth ∧ 0 ≤ r.gammaWidth) {P : Fin 3 → ℝ}
    (hP : 0 ≤ P 0) (hP1 : P 1 = 1) (hP2 : P 2 = 1) :
    (b.cell K lib).levels P = ((b.lvalue.resonances.map (coupledOf K lib
      (lChannel b.pair b.radii b.lvalue.l))).filter fun a => a.J = b.J).map (Coupled.level (P 0)) := by
  rw [List.filter_map, List.map_map]
  have hf : (b.lvalue.resonances.filter ((fun a : Coupled => decide (a.J = b.J)) ∘ coupledOf K lib
      (lChannel b.pair b.radii b.lvalue.l))) = b.current := by
    refine List.filter_congr fun r _ => ?_
    rfl
  rw [hf]
  show ((b.current.map _).map _) = _
  rw [List.map_map]
  refine List.map_congr_left fun r hr => ?_
  obtain ⟨Pr, h1, h2, h3, h4⟩ := Block.width_ok h hn hr
  obtain ⟨w1, w2⟩ := hw r (List.mem_filter.mp hr).1
  simp only [Function.comp, Coupled.level, coupledOf]
  rw [toOtherWidth_sq w2, okValue_ok h1]
  congr 1
  funext j
  fin_cases j
  · show Real.sqrt (2 * P 0) * b.elasticWidth K lib r = Real.sqrt (r.neutronWidth * P 0 / Pr)
    rw [h4, if_pos w1, one_mul, ← Real.sqrt_mul (by positivity), abs_of_nonneg w1]
    congr 1
    ring
  · show Real.sqrt (2 * P 1) * toOtherWidth r.firstFissionWidth = fissionAmplitude r.firstFissionWidth
    rw [hP1, toOtherWidth_amplitude]
  · show Real.sqrt (2 * P 2) * toOtherWidth r.secondFissionWidth = fissionAmplitude r.secondFissionWidth
    rw [hP2, toOtherWidth_amplitude]

theorem fission_penetrability {pair fission : ParticlePair} {radii : ChannelRadii} {l : ℕ} {J : ℚ} {name : Str}
    {radius : ℝ} (h : radii.penetrability E = .ok radius) :
    (fissionChannel pair fission radii l J name).penetrability K lib E = .ok 1 := by
  unfold Channel.penetrability
  refine bind_ok.mpr ⟨0, rfl, bind_ok.mpr ⟨radius, h, ?_⟩⟩
  show calculatePenetrability lib .fission l _ _ = .ok 1
  unfold calculatePenetrability
  rfl

/-- The collision matrix of the cell of a block. -/
theorem Block.cell_collision {spin : ℚ} {ap : ℝ} {nro : Option (ℝ → Outcome ℝ)} {naps : ℤ} {b : Block}
    (h : b.Valid K lib neutronMass incident target spin ap nro naps) (hn : b.Numbered)
    (hw : ∀ r ∈ b.lvalue.resonances, 0 ≤ r.neutronWidth ∧ 0 ≤ r.gammaWidth) {P : ℝ} (hP : 0 ≤ P)
    (hp : (elasticChannel b.pair b.radii b.numbers).penetrability K lib E = .ok P) :
    (b.cell K lib).collision K lib E = collisionOf E (waveOf K lib E (lChannel b.pair b.radii b.lvalue.l))
      (b.lvalue.resonances.map (coupledOf K lib (lChannel b.pair b.radii b.lvalue.l))) b.J := by
  obtain ⟨-, radius, hr, -⟩ := neutron_penetrability (c := elasticChannel b.pair b.radii b.numbers) rfl hp
  have hP0 : okValue (((b.cell K lib).channel 0).penetrability K lib E) = P := okValue_ok hp
  have hp' : okValue ((lChannel b.pair b.radii b.lvalue.l).penetrability K lib E) = P := by
    rw [← hn.l]
    exact okValue_ok hp
  unfold Cell.collision collisionOf
  rw [Block.cell_levels h hn hw (P := fun j => okValue (((b.cell K lib).channel j).penetrability K lib E))
    (by simpa [hP0] using hP) (okValue_ok (fission_penetrability hr)) (okValue_ok (fission_penetrability hr))]
  simp only [hP0, waveOf, hp']
  rw [← hn.l]
  rfl

theorem collision_nil (φ E : ℝ) : reichMooreCollision φ E [] = exp (-(2 * I * φ)) • 1 := by
  have h0 : reichMooreK E [] = 0 := by
    ext i j
    simp [reichMooreK]
  unfold reichMooreCollision
  rw [h0, sub_zero, inv_one, two_smul, add_sub_cancel_right]

theorem empty_collision {awri : ℝ} {pair : ParticlePair} {radii : ChannelRadii} {n : QuantumNumbers} :
    ((emptyBlock awri pair radii n).cell K lib).collision K lib E
      = exp (-(2 * I * okValue ((lChannel pair radii n.l).phaseShift K lib E))) • 1 :=
  collision_nil _ E

theorem normSq_exp_neg (φ : ℝ) : normSq (exp (-(2 * I * φ))) = 1 := by
  rw [normSq_eq_norm_sq, Complex.norm_exp]
  simp

theorem normSq_one_sub_exp (φ : ℝ) : normSq (1 - exp (-(2 * I * φ))) = 4 * Real.sin φ ^ 2 := by
  have e : -(2 * I * φ) = ((-(2 * φ) : ℝ) : ℂ) * I := by push_cast; ring
  rw [e, Complex.exp_mul_I, ← Complex.ofReal_cos, ← Complex.ofReal_sin, normSq_apply]
  simp only [sub_re, sub_im, one_re, one_im, add_re, add_im, ofReal_re, ofReal_im, mul_re, mul_im, I_re, I_im,
    Real.cos_neg, Real.sin_neg]
  have h1 := Real.cos_two_mul φ
  have h2 := Real.sin_two_mul φ
  have h3 := Real.sin_sq_add_cos_sq φ
  rw [h1, h2]
  have h4 : Real.cos φ ^ 2 = 1 - Real.sin φ ^ 2 := by linarith
  ring_nf
  rw [show Real.cos φ ^ 4 = (Real.cos φ ^ 2) ^ 2 by ring, h4]
  ring

theorem empty_values {awri : ℝ} {pair : ParticlePair} {radii : ChannelRadii} {n : QuantumNumbers} :
    normSq (1 - ((emptyBlock awri pair radii n).cell K lib).collision K lib E 0 0)
      = 4 * Real.sin (okValue ((lChannel pair radii n.l).phaseShift K lib E)) ^ 2 ∧
    (1 - ∑ j, normSq (((emptyBlock awri pair radii n).cell K lib).collision K lib E 0 j)) = 0 ∧
    normSq (((emptyBlock awri pair radii n).cell K lib).collision K lib E 0 1)
      + normSq (((emptyBlock awri pair radii n).cell K lib).collision K lib E 0 2) = 0 := by
  rw [empty_collision]
  refine ⟨?_, ?_, ?_⟩
  · rw [← normSq_one_sub_exp]
    simp
  · rw [Fin.sum_univ_three]
    simp [normSq_exp_neg]
  · simp

/-! ## Lists of blocks -/

/-- Sums over all (l, J) of an evaluation. -/
theorem sum_groupsOf {lvalues : List ReichMooreLValue} (f : ReichMooreLValue → ℚ → ℝ) :
    ((groupsOf lvalues).map fun x => f x.1 x.2).sum
      = (lvalues.map fun lv => ∑ J ∈ (lv.resonances.map ReichMooreResonance.spin).toFinset, f lv J).sum := by
  unfold groupsOf
  rw [List.map_flatMap, List.flatMap_def, List.sum_flatten, List.map_map]
  congr 1
  refine List.map_congr_left fun lv _ => ?_
  simp only [Function.comp, List.map_map]
  have hnd : (sortUnique (lv.resonances.map ReichMooreResonance.spin)).Nodup :=
    (sortUnique_sorted _).imp fun h => h.ne
  have hf : (lv.resonances.map ReichMooreResonance.spin).toFinset
      = (sortUnique (lv.resonances.map ReichMooreResonance.spin)).toFinset := by
    ext J
    rw [List.mem_toFinset, List.mem_toFinset, mem_sortUnique]
  rw [hf, List.sum_toFinset _ hnd]
  rfl

/-- The resonances of all blocks with a certain J and parity. -/
theorem blocks_energies {blocks : List Block} {lvalues : List ReichMooreLValue}
    (hg : blocks.map (fun b => (b.lvalue, b.J)) = groupsOf lvalues) (J : ℚ) (parity : ℤ) :
    ((blocks.filter fun b => |b.J| = J ∧ (-1) ^ b.lvalue.l = parity).flatMap Block.current).Perm
      (((lvalues.filter fun lv => (-1) ^ lv.l = parity).flatMap ReichMooreLValue.resonances).filter
        fun r => |r.spin| = J) := by
  have e1 : (blocks.filter fun b => |b.J| = J ∧ (-1) ^ b.lvalue.l = parity).flatMap Block.current
      = ((groupsOf lvalues).filter fun x => |x.2| = J ∧ (-1) ^ x.1.l = parity).flatMap
        fun x => x.1.resonances.filter fun r => r.spin == x.2 := by
    rw [← hg, List.filter_map, List.flatMap_map]
    rfl
  rw [e1]
  clear e1 hg
  unfold groupsOf
  induction lvalues with
  | nil => exact .nil
  | cons lv lvalues ih =>
    rw [List.flatMap_cons, List.filter_append, List.flatMap_append]
    by_cases hp : (-1 : ℤ) ^ lv.l = parity
    · rw [List.filter_cons_of_pos (by simpa using hp), List.flatMap_cons, List.filter_append]
      refine List.Perm.append ?_ ih
      rw [List.filter_map, List.flatMap_map]
      have e2 : ((sortUnique (lv.resonances.map ReichMooreResonance.spin)).filter
          ((fun x : ReichMooreLValue × ℚ => decide (|x.2| = J ∧ (-1) ^ x.1.l = parity)) ∘
            fun J => (lv, J)))
          = (sortUnique (lv.resonances.map ReichMooreResonance.spin)).filter fun x => |x| = J := by
        refine List.filter_congr fun x _ => ?_
        simp [hp]
      rw [e2]
      have hnd : (sortUnique (lv.resonances.map ReichMooreResonance.spin)).Nodup :=
        (sortUnique_sorted _).imp fun h => h.ne
      have h3 := flatMap_filter_perm ReichMooreResonance.spin
        ((sortUnique (lv.resonances.map ReichMooreResonance.spin)).filter fun x => |x| = J)
        (hnd.filter _) (lv.resonances.filter fun r => |r.spin| = J) (by
          intro r hr
          rw [List.mem_filter] at hr ⊢
          exact ⟨mem_sortUnique.mpr (List.mem_map_of_mem hr.1), hr.2⟩)
      refine List.Perm.trans (List.Perm.of_eq ?_) h3
      refine List.flatMap_congr fun x hx => ?_
      rw [List.filter_filter]
      refine List.filter_congr fun r _ => ?_
      have hx' := (List.mem_filter.mp hx).2
      by_cases hrx : r.spin = x
      · subst hrx
        simpa using hx'
      · simp [hrx]
    · rw [List.filter_cons_of_neg (by simpa using hp)]
      have e2 : (((sortUnique (lv.resonances.map ReichMooreResonance.spin)).map fun J => (lv, J)).filter
          fun x => decide (|x.2| = J ∧ (-1) ^ x.1.l = parity)) = [] := by
        rw [List.filter_eq_nil_iff]
        intro x hx
        obtain ⟨y, -, rfl⟩ := List.mem_map.mp hx
        simp [hp]
      rw [e2]
      exact ih

end Verif.Endf
