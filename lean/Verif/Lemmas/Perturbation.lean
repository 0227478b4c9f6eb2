import Verif.Spec.Perturbation
import Verif.Lemmas.Continuity
import Verif.Lemmas.LowEnergy

/-!
# The R-matrix formulas as functions of the resonance parameters
-/

namespace Verif

open Filter Topology Complex Matrix

/-- Energy, eliminated width and widths of `n` resonances with `m` channels. -/
abbrev Params (n m : ℕ) := Fin n → ℝ × ℝ × (Fin m → ℝ)

theorem getD_getElem {α : Type*} {l : List α} {i : ℕ} {d : α} (h : i < l.length) : l.getD i d = l[i] := by
  simp [List.getD, h]

/-- The parameters of a list of resonances. -/
noncomputable def paramsOf (n m : ℕ) (rs : List Resonance) : Params n m := fun i =>
  let r := rs.getD i ⟨0, [], 0⟩
  (r.energy, r.eliminated, fun c => r.width c)

theorem paramsOf_near {δ : ℝ} (hδ : 0 < δ) {n m : ℕ} {rs rs' : List Resonance}
    (h : Spec.NearResonances δ rs rs') :
    dist (paramsOf n m rs') (paramsOf n m rs) < δ := by
  rw [dist_pi_lt_iff hδ]
  intro i
  have key : ∀ k : ℕ, Spec.NearResonance δ (rs.getD k ⟨0, [], 0⟩) (rs'.getD k ⟨0, [], 0⟩) := by
    intro k
    induction h generalizing k with
    | nil => exact ⟨by simpa using hδ, by simpa using hδ, by simp⟩
    | cons h1 _ ih =>
      cases k with
      | zero => exact h1
      | succ k => exact ih k
  obtain ⟨h1, h2, h3⟩ := key i
  have h3' : ∀ k : ℕ, |(rs'.getD i ⟨0, [], 0⟩).width k - (rs.getD i ⟨0, [], 0⟩).width k| < δ := by
    simp only [Resonance.width]
    generalize (rs'.getD i ⟨0, [], 0⟩).widths = b at h3
    generalize (rs.getD i ⟨0, [], 0⟩).widths = a at h3
    intro k
    induction h3 generalizing k with
    | nil => simpa using hδ
    | cons h1 _ ih =>
      cases k with
      | zero => exact h1
      | succ k => exact ih k
  simp only [paramsOf, Prod.dist_eq, Real.dist_eq]
  exact max_lt h1 (max_lt h2 ((dist_pi_lt_iff hδ).mpr fun c => by rw [Real.dist_eq]; exact h3' c))

section

variable {channels : List Channel} {E : ℝ} {n : ℕ}

open Classical in
/-- The R-matrix as a function of the parameters. -/
noncomputable def paramR (channels : List Channel) (E : ℝ) {n : ℕ} (p : Params n channels.length) :
    Matrix (Fin channels.length) (Fin channels.length) ℂ :=
  Matrix.of fun c c' => ∑ i : Fin n,
    ((if channels[c].belowThreshold E then 0 else (p i).2.2 c : ℝ) : ℂ)
      * ((if channels[c'].belowThreshold E then 0 else (p i).2.2 c' : ℝ) : ℂ)
      / (((p i).1 : ℂ) - E - I * ((p i).2.1 : ℂ) ^ 2)

theorem rMatrix_params {rs : List Resonance} (hn : rs.length = n) :
    Spec.rMatrix channels rs E = paramR channels E (paramsOf n channels.length rs) := by
  subst hn
  ext c c'
  simp only [Spec.rMatrix, paramR, Matrix.of_apply]
  rw [← Fin.sum_univ_getElem]
  refine (Fintype.sum_equiv (finCongr (by simp)) _ _ fun i => ?_)
  simp [paramsOf, Spec.amplitude]
  rfl

theorem denominator_ne {e elim : ℝ} (h : ¬ (e = E ∧ elim = 0)) :
    ((e : ℂ) - E - I * (elim : ℂ) ^ 2) ≠ 0 := by
  intro h0
  apply h
  have hre := congrArg Complex.re h0
  have him := congrArg Complex.im h0
  simp [← Complex.ofReal_pow] at hre him
  exact ⟨by linarith, him⟩

theorem paramR_tendsto {p₀ : Params n channels.length}
    (hp : ∀ i, ¬ ((p₀ i).1 = E ∧ (p₀ i).2.1 = 0)) :
    Tendsto (paramR channels E) (𝓝 p₀) (𝓝 (paramR channels E p₀)) := by
  classical
  rw [tendsto_matrix]
  intro c c'
  simp only [paramR, Matrix.of_apply]
  refine tendsto_finsetSum _ fun i _ => ?_
  have hi : Tendsto (fun p : Params n channels.length => p i) (𝓝 p₀) (𝓝 (p₀ i)) :=
    (continuous_apply i).tendsto p₀
  have hw : ∀ c : Fin channels.length, Tendsto (fun p : Params n channels.length =>
      ((if channels[c].belowThreshold E then 0 else (p i).2.2 c : ℝ) : ℂ)) (𝓝 p₀)
      (𝓝 ((if channels[c].belowThreshold E then 0 else (p₀ i).2.2 c : ℝ) : ℂ)) := by
    intro c
    by_cases hc : channels[c].belowThreshold E
    · simp only [if_pos hc]
      exact tendsto_const_nhds
    · simp only [if_neg hc]
      have : Continuous fun x : ℝ × ℝ × (Fin channels.length → ℝ) => ((x.2.2 c : ℝ) : ℂ) := by fun_prop
      exact (this.tendsto _).comp hi
  refine ((hw c).mul (hw c')).div ?_ (denominator_ne (hp i))
  have : Continuous fun x : ℝ × ℝ × (Fin channels.length → ℝ) =>
      ((x.1 : ℂ) - E - I * (x.2.1 : ℂ) ^ 2) := by fun_prop
  exact (this.tendsto _).comp hi

end

section

variable {option : BoundaryOption} {K : Constants} {lib : CoulombLibrary} {channels : List Channel}
  {rs : List Resonance} {E : ℝ} {P S w phi : Fin channels.length → ℝ}

/-- What a spin group adds, as a function of the matrix `(1 - R L)⁻¹ R`. -/
theorem contribution_of_level {ι : Type*} {F : Filter ι} {rs' : ι → List Resonance}
    (hR : Tendsto (fun x => Spec.rMatrix channels (rs' x) E) F (𝓝 (Spec.rMatrix channels rs E)))
    (hdet : (Spec.levelDenominator option channels rs E P S).det ≠ 0) :
    (∀ᶠ x in F, (Spec.levelDenominator option channels (rs' x) E P S).det ≠ 0) ∧
    ∀ id, Tendsto (fun x => Spec.contribution option K channels (rs' x) E P S w phi id) F
      (𝓝 (Spec.contribution option K channels rs E P S w phi id)) := by
  have hD : Tendsto (fun x => Spec.levelDenominator option channels (rs' x) E P S) F
      (𝓝 (Spec.levelDenominator option channels rs E P S)) := by
    unfold Spec.levelDenominator
    exact tendsto_const_nhds.sub (hR.mul tendsto_const_nhds)
  obtain ⟨h1, h2⟩ := inverse_tendsto hD hdet
  refine ⟨h1, fun id => ?_⟩
  have hT : Tendsto (fun x => Spec.tMatrix option channels (rs' x) E P S) F
      (𝓝 (Spec.tMatrix option channels rs E P S)) := by
    rw [tendsto_matrix]
    intro c c'
    simp only [Spec.tMatrix, Matrix.of_apply]
    exact (tendsto_const_nhds.mul (tendsto_matrix.mp (h2.mul hR) c c')).mul tendsto_const_nhds
  have hΦ : Continuous fun T : Matrix (Fin channels.length) (Fin channels.length) ℂ =>
      ∑ c : Fin channels.length, if channels[c].isIncident then
        (∑ c' : Fin channels.length, if channels[c'].reaction = id then
          Spec.incidentFactor K channels E
            * Spec.partialCrossSection (Spec.collision T w phi) w c c' else 0)
        + (if Spec.captureID channels = some id then
          Spec.incidentFactor K channels E * Spec.captureCrossSection (Spec.collision T w phi) c else 0)
      else 0 := by
    have hU : ∀ c c', Continuous fun T : Matrix (Fin channels.length) (Fin channels.length) ℂ =>
        Spec.collision T w phi c c' := by
      intro c c'
      unfold Spec.collision
      have : Continuous fun T : Matrix (Fin channels.length) (Fin channels.length) ℂ => T c c' :=
        (continuous_apply c').comp (continuous_apply c)
      exact (continuous_const.mul (continuous_const.add (continuous_const.mul this))).mul continuous_const
    refine continuous_finsetSum _ fun c _ => ?_
    split
    · refine (continuous_finsetSum _ fun c' _ => ?_).add ?_
      · split
        · exact continuous_const.mul (continuous_normSq.comp (continuous_const.sub (hU c c')))
        · exact continuous_const
      · split
        · exact continuous_const.mul (continuous_const.sub (continuous_finsetSum _ fun c' _ =>
            continuous_normSq.comp (hU c c')))
        · exact continuous_const
    · exact continuous_const
  exact (hΦ.tendsto _).comp hT

/-- The formulas with nearly the same resonance parameters. -/
theorem contribution_near (hev : Spec.Evaluable option K lib channels rs E P S w phi)
    (ids : List ReactionID) {ε : ℝ} (hε : 0 < ε) :
    ∃ δ > 0, ∀ rs', Spec.NearResonances δ rs rs' →
      Spec.Evaluable option K lib channels rs' E P S w phi ∧
      ∀ id ∈ ids, |Spec.contribution option K channels rs' E P S w phi id
        - Spec.contribution option K channels rs E P S w phi id| < ε := by
  classical
  let m := channels.length
  let p₀ := paramsOf rs.length m rs
  have hp : ∀ i, ¬ ((p₀ i).1 = E ∧ (p₀ i).2.1 = 0) := by
    intro i
    have : rs.getD i ⟨0, [], 0⟩ ∈ rs := by
      rw [getD_getElem i.isLt]
      exact List.getElem_mem _
    exact hev.noPole _ this
  -- resonances with given parameters
  let make : Params rs.length m → List Resonance := fun p =>
    List.ofFn fun i => ⟨(p i).1, List.ofFn (p i).2.2, (p i).2.1⟩
  have hmake : ∀ p, Spec.rMatrix channels (make p) E = paramR channels E p := by
    intro p
    rw [rMatrix_params (n := rs.length) (by simp [make])]
    congr 1
    funext i
    simp only [paramsOf, make]
    rw [getD_getElem (by simp)]
    simp only [List.getElem_ofFn, Fin.eta, Resonance.width]
    refine Prod.ext rfl (Prod.ext rfl (funext fun c => ?_))
    change (List.ofFn (p i).2.2).getD c 0 = _
    rw [getD_getElem (by simp [m])]
    simp
  have hR : Tendsto (fun p => Spec.rMatrix channels (make p) E) (𝓝 p₀)
      (𝓝 (Spec.rMatrix channels rs E)) := by
    simp only [hmake]
    rw [rMatrix_params rfl]
    exact paramR_tendsto hp
  obtain ⟨h1, h2⟩ := contribution_of_level (option := option) (K := K) (w := w) (phi := phi) hR hev.invertible
  have h3 : ∀ᶠ p in 𝓝 p₀, ∀ id ∈ ids.toFinset,
      |Spec.contribution option K channels (make p) E P S w phi id
        - Spec.contribution option K channels rs E P S w phi id| < ε := by
    rw [Finset.eventually_all]
    intro id _
    have := Metric.tendsto_nhds.mp (h2 id) ε hε
    simpa only [Real.dist_eq] using this
  have h4 : ∀ᶠ p in 𝓝 p₀, ∀ i, ¬ ((p i).1 = E ∧ (p i).2.1 = 0) := by
    rw [eventually_all]
    intro i
    have hi : Tendsto (fun p : Params rs.length m => p i) (𝓝 p₀) (𝓝 (p₀ i)) :=
      (continuous_apply i).tendsto p₀
    have hc : Continuous fun x : ℝ × ℝ × (Fin m → ℝ) => ((x.1 : ℂ) - E - I * (x.2.1 : ℂ) ^ 2) := by fun_prop
    filter_upwards [((hc.tendsto _).comp hi).eventually_ne (denominator_ne (hp i))] with p hpi h0
    apply hpi
    simp [Function.comp, h0.1, h0.2]
  obtain ⟨δ, hδ, hall⟩ := Metric.eventually_nhds_iff.mp (h1.and (h3.and h4))
  refine ⟨δ, hδ, fun rs' hrs => ?_⟩
  have hlen : rs'.length = rs.length := hrs.length_eq.symm
  obtain ⟨k1, k2, k3⟩ := hall (paramsOf_near (n := rs.length) (m := m) hδ hrs)
  have hRR : Spec.rMatrix channels rs' E = Spec.rMatrix channels (make (paramsOf rs.length m rs')) E := by
    rw [hmake, rMatrix_params hlen]
  have hcon : ∀ id, Spec.contribution option K channels rs' E P S w phi id
      = Spec.contribution option K channels (make (paramsOf rs.length m rs')) E P S w phi id := by
    intro id
    unfold Spec.contribution Spec.tMatrix Spec.levelDenominator
    rw [hRR]
  refine ⟨⟨hev.penetrability, hev.shiftFactor, hev.coulomb, hev.phase, hev.nonneg, ?_, ?_, ?_,
    hev.waveNumber⟩, fun id hid => by rw [hcon]; exact k2 id (List.mem_toFinset.mpr hid)⟩
  · intro r' hr'
    obtain ⟨i, hi, rfl⟩ := List.getElem_of_mem hr'
    have hnear := (List.forall₂_iff_get.mp hrs).2 i (hlen ▸ hi) hi
    have := hnear.widths.length_eq
    simp only [List.get_eq_getElem] at this
    rw [← this]
    exact hev.widths _ (List.getElem_mem _)
  · intro r' hr'
    obtain ⟨i, hi, rfl⟩ := List.getElem_of_mem hr'
    have := k3 ⟨i, hlen ▸ hi⟩
    simpa only [paramsOf, getD_getElem (d := (⟨0, [], 0⟩ : Resonance)) hi] using this
  · unfold Spec.levelDenominator
    rw [hRR]
    exact k1

end

end Verif
