import Verif.Spec.Fission
import Verif.Lemmas.OrderMore

/-!
# Lemmas on fission vectors that are turned
-/

namespace Verif.Fission

open Spec Complex Endf

/-- The matrix that turns the amplitudes of a level: the neutron amplitude stays. -/
noncomputable def turn (q : Matrix (Fin 2) (Fin 2) ℝ) : Matrix (Fin 3) (Fin 3) ℂ :=
  !![1, 0, 0; 0, (q 0 0 : ℂ), (q 0 1 : ℂ); 0, (q 1 0 : ℂ), (q 1 1 : ℂ)]

variable {q : Matrix (Fin 2) (Fin 2) ℝ} {E φ : ℝ}

theorem columns (h : q.transpose * q = 1) :
    q 0 0 * q 0 0 + q 1 0 * q 1 0 = 1 ∧ q 0 1 * q 0 1 + q 1 1 * q 1 1 = 1 ∧
    q 0 0 * q 0 1 + q 1 0 * q 1 1 = 0 := by
  have h1 := congrFun (congrFun h 0) 0
  have h2 := congrFun (congrFun h 1) 1
  have h3 := congrFun (congrFun h 0) 1
  simp [Matrix.mul_apply, Fin.sum_univ_two] at h1 h2 h3
  exact ⟨h1, h2, h3⟩

theorem turn_orthogonal (h : q.transpose * q = 1) : (turn q).transpose * turn q = 1 := by
  obtain ⟨h1, h2, h3⟩ := columns h
  have g1 : (q 0 0 : ℂ) * q 0 0 + q 1 0 * q 1 0 = 1 := by exact_mod_cast h1
  have g2 : (q 0 1 : ℂ) * q 0 1 + q 1 1 * q 1 1 = 1 := by exact_mod_cast h2
  have g3 : (q 0 0 : ℂ) * q 0 1 + q 1 0 * q 1 1 = 0 := by exact_mod_cast h3
  have g4 : (q 0 1 : ℂ) * q 0 0 + q 1 1 * q 1 0 = 0 := by linear_combination g3
  ext i j
  fin_cases i <;> fin_cases j <;> simp [turn, Matrix.mul_apply, Fin.sum_univ_three, g1, g2, g3, g4]

/-- A level with its fission vector turned. -/
structure Turned (q : Matrix (Fin 2) (Fin 2) ℝ) (a b : CoupledLevel) : Prop where
  energy : a.energy = b.energy
  capture : a.capture = b.capture
  amplitude : ∀ i, (b.amplitude i : ℂ) = ∑ j, turn q i j * a.amplitude j

theorem reichMooreK_turned {as bs : List CoupledLevel} (h : List.Forall₂ (Turned q) as bs) :
    reichMooreK E bs = turn q * reichMooreK E as * (turn q).transpose := by
  induction h with
  | nil =>
    have : reichMooreK E [] = 0 := by ext i j; simp [reichMooreK]
    rw [this]
    simp
  | @cons a b as bs hab _ ih =>
    have split : ∀ (x : CoupledLevel) xs, reichMooreK E (x :: xs) = Matrix.of (fun i j =>
        I / 2 * (x.amplitude i * x.amplitude j) / ((x.energy : ℂ) - E - I * x.capture / 2))
        + reichMooreK E xs := by
      intro x xs
      ext i j
      simp [reichMooreK]
    rw [split, split, Matrix.mul_add, Matrix.add_mul, ih]
    congr 1
    ext i j
    rw [Matrix.of_apply, hab.amplitude, hab.amplitude, ← hab.energy, ← hab.capture]
    simp only [Matrix.mul_apply, Fin.sum_univ_three, Matrix.of_apply, Matrix.transpose_apply]
    ring

theorem collision_turned (hq : q.transpose * q = 1) {as bs : List CoupledLevel}
    (h : List.Forall₂ (Turned q) as bs) :
    reichMooreCollision φ E bs = turn q * reichMooreCollision φ E as * (turn q).transpose := by
  have h1 := turn_orthogonal hq
  have h2 : turn q * (turn q).transpose = 1 := mul_eq_one_comm.mp h1
  have e1 : (turn q)⁻¹ = (turn q).transpose := Matrix.inv_eq_left_inv h1
  have e2 : (turn q).transpose⁻¹ = turn q := Matrix.inv_eq_left_inv h2
  have e3 : (1 - reichMooreK E bs)⁻¹ = turn q * (1 - reichMooreK E as)⁻¹ * (turn q).transpose := by
    have : 1 - reichMooreK E bs = turn q * (1 - reichMooreK E as) * (turn q).transpose := by
      rw [reichMooreK_turned h, Matrix.mul_sub, Matrix.sub_mul, Matrix.mul_one, h2]
    rw [this, Matrix.mul_inv_rev, Matrix.mul_inv_rev, e1, e2, ← Matrix.mul_assoc]
  unfold reichMooreCollision
  rw [e3]
  simp only [Matrix.mul_smul, Matrix.smul_mul, Matrix.mul_sub, Matrix.sub_mul, Matrix.mul_one, h2]

theorem sum_norms (hq : q.transpose * q = 1) (x y : ℂ) :
    normSq (x * q 0 0 + y * q 0 1) + normSq (x * q 1 0 + y * q 1 1) = normSq x + normSq y := by
  obtain ⟨h1, h2, h3⟩ := columns hq
  simp only [normSq_apply, add_re, add_im, mul_re, mul_im, ofReal_re, ofReal_im, mul_zero, sub_zero, zero_add]
  linear_combination (x.re ^ 2 + x.im ^ 2) * h1 + (y.re ^ 2 + y.im ^ 2) * h2
    + 2 * (x.re * y.re + x.im * y.im) * h3

/-- The collision matrix after turning: elastic scattering and all of fission stay the same. -/
theorem collision_norms (hq : q.transpose * q = 1) {as bs : List CoupledLevel}
    (h : List.Forall₂ (Turned q) as bs) :
    reichMooreCollision φ E bs 0 0 = reichMooreCollision φ E as 0 0 ∧
    normSq (reichMooreCollision φ E bs 0 1) + normSq (reichMooreCollision φ E bs 0 2)
      = normSq (reichMooreCollision φ E as 0 1) + normSq (reichMooreCollision φ E as 0 2) := by
  rw [collision_turned hq h]
  generalize reichMooreCollision φ E as = U
  refine ⟨?_, ?_⟩
  · simp [turn, Matrix.mul_apply, Fin.sum_univ_three, Matrix.vecMul, dotProduct]
  · rw [← sum_norms hq (U 0 1) (U 0 2)]
    simp [turn, Matrix.mul_apply, Fin.sum_univ_three, Matrix.vecMul, dotProduct]

/-! ## Partial waves -/

/-- The parameters of a resonance with its fission vector turned. -/
structure TurnedCoupled (q : ℚ → Matrix (Fin 2) (Fin 2) ℝ) (a b : Coupled) : Prop where
  J : a.J = b.J
  energy : a.energy = b.energy
  elastic : a.elastic = b.elastic
  capture : a.capture = b.capture
  penetrability : a.penetrability = b.penetrability
  fission : ![fissionAmplitude b.fissionA, fissionAmplitude b.fissionB]
    = (q a.J).mulVec ![fissionAmplitude a.fissionA, fissionAmplitude a.fissionB]

theorem TurnedCoupled.level {q : ℚ → Matrix (Fin 2) (Fin 2) ℝ} {a b : Coupled} (h : TurnedCoupled q a b)
    (p : ℝ) : Turned (q a.J) (a.level p) (b.level p) := by
  refine ⟨h.energy, h.capture, ?_⟩
  have h0 := congrFun h.fission 0
  have h1 := congrFun h.fission 1
  simp [Matrix.mulVec, dotProduct, Fin.sum_univ_two] at h0 h1
  intro i
  fin_cases i
  · simp [Coupled.level, turn, Fin.sum_univ_three, h.elastic, h.penetrability]
  · simp [Coupled.level, turn, Fin.sum_univ_three, h0]
  · simp [Coupled.level, turn, Fin.sum_univ_three, h1]

theorem levels_turned {q : ℚ → Matrix (Fin 2) (Fin 2) ℝ} {as bs : List Coupled}
    (h : List.Forall₂ (TurnedCoupled q) as bs) (p : ℝ) (J : ℚ) :
    List.Forall₂ (Turned (q J)) ((as.filter fun a => a.J = J).map (Coupled.level p))
      ((bs.filter fun a => a.J = J).map (Coupled.level p)) := by
  induction h with
  | nil => exact .nil
  | @cons a b as bs hab _ ih =>
    rw [List.filter_cons, List.filter_cons, ← hab.J]
    by_cases hJ : a.J = J
    · simp only [hJ, decide_true, if_true, List.map_cons]
      exact .cons (hJ ▸ hab.level p) ih
    · simp only [hJ, decide_false, Bool.false_eq_true, if_false]
      exact ih

theorem spins_turned {q : ℚ → Matrix (Fin 2) (Fin 2) ℝ} {as bs : List Coupled}
    (h : List.Forall₂ (TurnedCoupled q) as bs) : as.map Coupled.J = bs.map Coupled.J := by
  induction h with
  | nil => rfl
  | cons hab _ ih => rw [List.map_cons, List.map_cons, hab.J, ih]

theorem sums_turned {q : ℚ → Matrix (Fin 2) (Fin 2) ℝ} (hq : ∀ J, (q J).transpose * q J = 1)
    {as bs : List Coupled} (h : List.Forall₂ (TurnedCoupled q) as bs) (spin : ℚ) (w : CoupledWave) :
    levelElastic spin E w as = levelElastic spin E w bs ∧
    coupledElastic spin E w as = coupledElastic spin E w bs ∧
    coupledCapture spin E w as = coupledCapture spin E w bs ∧
    coupledFission spin E w as = coupledFission spin E w bs := by
  have key := fun J => collision_norms (φ := w.φ) (E := E) (hq J) (levels_turned h w.p J)
  unfold levelElastic coupledElastic coupledCapture coupledFission collisionOf
  rw [spins_turned h]
  have e1 : ∀ J, reichMooreCollision w.φ E ((bs.filter fun a => a.J = J).map (Coupled.level w.p)) 0 0
      = reichMooreCollision w.φ E ((as.filter fun a => a.J = J).map (Coupled.level w.p)) 0 0 :=
    fun J => (key J).1
  refine ⟨?_, ?_, ?_, ?_⟩
  · simp only [e1]
  · simp only [e1]
  · refine Finset.sum_congr rfl fun J _ => ?_
    rw [Fin.sum_univ_three, Fin.sum_univ_three, add_assoc, add_assoc, (key J).2, e1]
  · refine Finset.sum_congr rfl fun J _ => ?_
    rw [(key J).2]

/-- The parameters of turned resonances, from those of the resonances. -/
theorem coupled_turned {P : ReichMooreResonance → Coupled → Prop} {q : ℚ → Matrix (Fin 2) (Fin 2) ℝ}
    {rs rs' : List ReichMooreResonance} {as : List Coupled}
    (hP : ∀ r a, P r a → a.J = r.spin ∧ a.fissionA = r.firstFissionWidth ∧ a.fissionB = r.secondFissionWidth)
    (hP' : ∀ r r' a, P r a → TurnedResonance (q r.spin) r r' →
      P r' { a with fissionA := r'.firstFissionWidth, fissionB := r'.secondFissionWidth })
    (h : List.Forall₂ (fun r r' => TurnedResonance (q r.spin) r r') rs rs') (ha : List.Forall₂ P rs as) :
    ∃ bs, List.Forall₂ P rs' bs ∧ List.Forall₂ (TurnedCoupled q) as bs := by
  induction h generalizing as with
  | nil =>
    cases ha
    exact ⟨[], .nil, .nil⟩
  | @cons r r' rs rs' hr _ ih =>
    cases ha with
    | @cons _ a _ as ha hs =>
      obtain ⟨bs, h1, h2⟩ := ih hs
      refine ⟨_, .cons (hP' r r' a ha hr) h1, .cons ⟨rfl, rfl, rfl, rfl, rfl, ?_⟩ h2⟩
      obtain ⟨e1, e2, e3⟩ := hP r a ha
      rw [e1, e2, e3]
      exact hr.fission

/-! ## Ranges of the newer code -/

variable {K : Constants} {neutronMass A : ℝ} {incident target : Str} {nro : Option (ℝ → Outcome ℝ)}
  {naps : ℤ} {p p' : ReichMoore} {ws : List (CoupledWave × List Coupled)} {m : ReactionID → Option ℝ}
  {f : ℕ → ℚ → Matrix (Fin 2) (Fin 2) ℝ}

theorem resonances_nil {lv lv' : ReichMooreLValue} (h : TurnedLValue f lv lv') :
    lv'.resonances = [] ↔ lv.resonances = [] := by
  rw [← List.length_eq_zero_iff, ← List.length_eq_zero_iff, h.resonances.length_eq]

theorem spins_map {lv lv' : ReichMooreLValue} (h : TurnedLValue f lv lv') :
    lv.resonances.map ReichMooreResonance.spin = lv'.resonances.map ReichMooreResonance.spin := by
  have := h.resonances
  generalize lv.resonances = rs at this
  generalize lv'.resonances = rs' at this
  induction this with
  | nil => rfl
  | cons hr _ ih => rw [List.map_cons, List.map_cons, hr.spin, ih]

theorem missingFactor_turned (h : TurnedFission f p p') (l : ℕ) : missingFactor p l = missingFactor p' l := by
  unfold missingFactor
  congr 1
  rw [← h.spin]
  congr 1
  have := h.lValues
  generalize p.lValues = lvs at this
  generalize p'.lValues = lvs' at this
  induction this with
  | nil => rfl
  | cons r _ ih =>
    rw [List.filter_cons, List.filter_cons, r.l]
    split
    · rw [List.map_cons, List.map_cons, ih]
      unfold givenFactor
      rw [spins_map r]
    · exact ih

theorem lengthOf_turned (h : TurnedFission f p p') {lv lv' : ReichMooreLValue} (hl : TurnedLValue f lv lv') :
    lengthOf p' lv' = lengthOf p lv := by
  unfold lengthOf
  rw [hl.apl, h.ap]

/-- The formula for a range holds for all orientations of its fission vectors. -/
theorem isReichMoore_turned (hs : TurnedFission f p p')
    (h : IsReichMoore K neutronMass A E incident target nro naps p ws m) :
    ∃ ws', IsReichMoore K neutronMass A E incident target nro naps p' ws' m := by
  obtain ⟨ws', w1, w2⟩ := relate_along (P' := fun (lv : ReichMooreLValue) (w : CoupledWave × List Coupled) =>
      if lv.resonances = [] then w.2 = [] else lv.l ≤ 4 ∧ lv.l < p'.nlsc ∧
      ∃ channel scattering, IsRadii (lengthOf p' lv) nro naps (A * neutronMass) channel scattering ∧
      IsLevelWave (neutronWaveNumber (waveConstant K.hbar neutronMass) A) channel scattering E
        lv w.1 w.2)
      (V := fun w w' => w.1 = w'.1 ∧ ∃ l, List.Forall₂ (TurnedCoupled (f l)) w.2 w'.2) hs.lValues h.waves (by
    rintro x z ⟨w, as⟩ hxz hw
    dsimp only at hw ⊢
    by_cases he : x.resonances = []
    · rw [if_pos he] at hw
      refine ⟨⟨w, []⟩, ?_, rfl, 0, by rw [hw]; exact .nil⟩
      rw [if_pos ((resonances_nil hxz).mpr he)]
    · rw [if_neg he] at hw
      obtain ⟨hl, hn, channel, scattering, h1, h2⟩ := hw
      obtain ⟨bs, k1, k2⟩ := coupled_turned (fun r a ha => ⟨ha.J, ha.fissionA, ha.fissionB⟩)
        (fun r r' a ha hr => ⟨ha.J.trans hr.spin, ha.energy.trans hr.energy, ha.elastic.trans hr.neutronWidth,
          ha.capture.trans hr.gammaWidth, rfl, rfl, hr.energy ▸ ha.own, ha.finite⟩) hxz.resonances
        h2.resonances
      refine ⟨⟨w, bs⟩, ?_, rfl, x.l, k2⟩
      rw [if_neg fun hz : z.resonances = [] => he ((resonances_nil hxz).mp hz)]
      refine ⟨hxz.l ▸ hl, by rw [← hxz.l, ← hs.nlsc]; exact hn, channel, scattering, ?_, ?_⟩
      · rw [lengthOf_turned hs hxz]
        exact h1
      · have hl := hxz.l
        refine ⟨by rw [← hl]; exact h2.l, by rw [← hl]; exact h2.own, by rw [← hl]; exact h2.phase,
          by rw [← hl]; exact k1⟩)
  have sums : ∀ t : CoupledWave × List Coupled → ℝ,
      (∀ l w as bs, List.Forall₂ (TurnedCoupled (f l)) as bs → t (w, as) = t (w, bs)) →
      (ws.map t).sum = (ws'.map t).sum := by
    intro t ht
    refine map_sum_related w2 ?_
    rintro ⟨w, as⟩ ⟨w', bs⟩ ⟨e1, l, e2⟩
    dsimp only at e1 e2
    subst e1
    exact ht _ _ _ _ e2
  have key := fun {l} {as bs : List Coupled} (h : List.Forall₂ (TurnedCoupled (f l)) as bs) w =>
    sums_turned (E := E) (hs.orthogonal l) h p.spin w
  refine ⟨ws', h.finite, w1, ?_, ?_, ?_, h.other⟩
  · rw [h.capture, ← hs.spin]
    exact congrArg _ (congrArg _ (sums (fun w => coupledCapture p.spin E w.1 w.2)
      fun _ w _ _ h => (key h w).2.2.1))
  · rw [h.fission, ← hs.spin]
    exact congrArg _ (sums (fun w => coupledFission p.spin E w.1 w.2) fun _ w _ _ h => (key h w).2.2.2)
  · obtain ⟨φ, a1, a2⟩ := h.elastic
    refine ⟨φ, ?_, ?_⟩
    · intro l hl hne
      rw [← missingFactor_turned hs] at hne
      rw [← hs.ap]
      exact a1 l (hs.nlsc ▸ hl) hne
    · rw [a2, ← hs.spin, ← hs.nlsc, sums (fun w => levelElastic p.spin E w.1 w.2)
        fun _ w _ _ h => (key h w).1]
      simp only [missingFactor_turned hs]

theorem distinctEnergies_turned (h : TurnedFission f p p') (hd : DistinctEnergies p) :
    DistinctEnergies p' := by
  intro J parity
  have := hd J parity
  suffices h1 : ∀ lvs lvs' : List ReichMooreLValue, List.Forall₂ (TurnedLValue f) lvs lvs' →
      (((lvs.filter fun lv => (-1) ^ lv.l = parity).flatMap ReichMooreLValue.resonances).filter
        fun r => |r.spin| = J).map ReichMooreResonance.energy
      = (((lvs'.filter fun lv => (-1) ^ lv.l = parity).flatMap ReichMooreLValue.resonances).filter
        fun r => |r.spin| = J).map ReichMooreResonance.energy by
    rw [← h1 _ _ h.lValues]
    exact this
  intro lvs lvs' hl
  induction hl with
  | nil => rfl
  | @cons x z _ _ r _ ih =>
    rw [List.filter_cons, List.filter_cons, r.l]
    split
    · rw [List.flatMap_cons, List.flatMap_cons, List.filter_append, List.filter_append, List.map_append,
        List.map_append, ih]
      congr 1
      have := r.resonances
      generalize x.resonances = rs at this
      generalize z.resonances = rs' at this
      induction this with
      | nil => rfl
      | cons hr _ ih =>
        rw [List.filter_cons, List.filter_cons, hr.spin]
        split
        · rw [List.map_cons, List.map_cons, hr.energy, ih]
        · exact ih
    · exact ih

theorem mem_lValue (h : TurnedFission f p p') {lv' : ReichMooreLValue} (hl : lv' ∈ p'.lValues) :
    ∃ lv ∈ p.lValues, TurnedLValue f lv lv' :=
  forall₂_mem_right h.lValues hl

theorem mem_resonance {lv lv' : ReichMooreLValue} (h : TurnedLValue f lv lv') {r' : ReichMooreResonance}
    (hr : r' ∈ lv'.resonances) : ∃ r ∈ lv.resonances, TurnedResonance (f lv.l r.spin) r r' :=
  forall₂_mem_right h.resonances hr

theorem fissionAmplitude_eq_zero {x : ℝ} : fissionAmplitude x = 0 ↔ x = 0 := by
  unfold fissionAmplitude
  split
  · rename_i h
    rw [neg_eq_zero, Real.sqrt_eq_zero (by linarith)]
    exact neg_eq_zero
  · rename_i h
    exact Real.sqrt_eq_zero (not_lt.mp h)

/-- A resonance without fission widths has none in any orientation. -/
theorem no_fission {r r' : ReichMooreResonance} (h : TurnedResonance q r r') (h1 : r.firstFissionWidth = 0)
    (h2 : r.secondFissionWidth = 0) : r'.firstFissionWidth = 0 ∧ r'.secondFissionWidth = 0 := by
  have e := h.fission
  have e0 : fissionVector r = 0 := by
    ext i
    fin_cases i <;> simp [fissionVector, h1, h2, fissionAmplitude]
  rw [e0, Matrix.mulVec_zero] at e
  exact ⟨fissionAmplitude_eq_zero.mp (congrFun e 0), fissionAmplitude_eq_zero.mp (congrFun e 1)⟩

theorem physicalReichMoore_turned (h : TurnedFission f p p')
    (hp : PhysicalReichMoore neutronMass A nro naps p) : PhysicalReichMoore neutronMass A nro naps p' := by
  refine ⟨hp.mass, hp.positive, ?_, h.spin ▸ hp.spin, ?_, ?_, ?_, h.nlsc ▸ hp.waves, ⟨?_, ?_⟩, ?_, ?_,
    distinctEnergies_turned h hp.different, ?_⟩
  · intro lv hlv
    obtain ⟨x, hx, hxz⟩ := mem_lValue h hlv
    rw [← hxz.awri]
    exact hp.ratio x hx
  · intro he
    have := h.lValues.length_eq
    rw [he, List.length_nil, List.length_eq_zero_iff] at this
    exact hp.some this
  · have : p'.lValues.map ReichMooreLValue.l = p.lValues.map ReichMooreLValue.l := by
      have := h.lValues
      generalize p.lValues = lvs at this
      generalize p'.lValues = lvs' at this
      induction this with
      | nil => rfl
      | cons r _ ih => rw [List.map_cons, List.map_cons, r.l, ih]
    rw [this]
    exact hp.distinct
  · intro lv hlv
    obtain ⟨x, hx, hxz⟩ := mem_lValue h hlv
    rw [← hxz.l]
    exact hp.l x hx
  · intro lv hlv r hrm
    obtain ⟨x, hx, hxz⟩ := mem_lValue h hlv
    obtain ⟨y, hy, hyr⟩ := mem_resonance hxz hrm
    rw [← hxz.l, ← h.nlsc, ← h.spin, ← hyr.spin]
    exact hp.coupled.possible x hx y hy
  · intro lv hlv r hrm r' hrm'
    obtain ⟨x, hx, hxz⟩ := mem_lValue h hlv
    obtain ⟨y, hy, hyr⟩ := mem_resonance hxz hrm
    obtain ⟨y', hy', hyr'⟩ := mem_resonance hxz hrm'
    rw [← hxz.l, ← h.spin, ← hyr.spin, ← hyr'.spin]
    exact hp.coupled.both x hx y hy y' hy'
  · intro lv hlv r hrm r' hrm'
    obtain ⟨x, hx, hxz⟩ := mem_lValue h hlv
    obtain ⟨y, hy, hyr⟩ := mem_resonance hxz hrm
    obtain ⟨y', hy', hyr'⟩ := mem_resonance hxz hrm'
    rw [← hyr.spin, ← hyr'.spin]
    intro k1 k2 k3
    refine hp.fission x hx y hy y' hy' k1 k2 ⟨?_, ?_⟩
    · by_contra hc
      push Not at hc
      have := no_fission hyr hc.1 hc.2
      exact k3.1.elim (fun h => h this.1) fun h => h this.2
    · by_contra hc
      push Not at hc
      have := no_fission hyr' hc.1 hc.2
      exact k3.2.elim (fun h => h this.1) fun h => h this.2
  · intro lv hlv r hrm
    obtain ⟨x, hx, hxz⟩ := mem_lValue h hlv
    obtain ⟨y, hy, hyr⟩ := mem_resonance hxz hrm
    rw [← hyr.energy]
    exact hp.energies x hx y hy
  · intro lv hlv
    obtain ⟨x, hx, hxz⟩ := mem_lValue h hlv
    obtain ⟨channel, scattering, k1, k2⟩ := hp.radii x hx
    refine ⟨channel, scattering, ?_, fun r hrm => ?_⟩
    · rw [lengthOf_turned h hxz]
      exact k1
    · obtain ⟨y, hy, hyr⟩ := mem_resonance hxz hrm
      rw [← hyr.energy]
      exact k2 y hy

end Verif.Fission
