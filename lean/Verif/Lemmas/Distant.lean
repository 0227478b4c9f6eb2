import Verif.Lemmas.Perturbation
import Verif.Spec.Distant
import Mathlib.Analysis.Normed.Group.Basic

/-!
# Resonances of small strength
-/

namespace Verif

open Complex Matrix Filter Topology

theorem strength_nonneg (E : ℝ) (r : Resonance) : 0 ≤ Spec.strength E r := by
  refine div_nonneg (List.sum_nonneg fun x hx => ?_) (norm_nonneg _)
  obtain ⟨y, -, rfl⟩ := List.mem_map.mp hx
  positivity

theorem total_nonneg (E : ℝ) (rs : List Resonance) : 0 ≤ (rs.map (Spec.strength E)).sum := by
  refine List.sum_nonneg fun x hx => ?_
  obtain ⟨y, -, rfl⟩ := List.mem_map.mp hx
  exact strength_nonneg E y

theorem sq_le_sum (l : List ℝ) (i : ℕ) : l.getD i 0 ^ 2 ≤ (l.map (· ^ 2)).sum := by
  induction l generalizing i with
  | nil => simp
  | cons x l ih =>
    have h0 : 0 ≤ (l.map (· ^ 2)).sum := by
      refine List.sum_nonneg fun y hy => ?_
      obtain ⟨z, -, rfl⟩ := List.mem_map.mp hy
      positivity
    rw [List.map_cons, List.sum_cons]
    cases i with
    | zero => simpa using h0
    | succ i =>
      rw [List.getD_cons_succ]
      nlinarith [ih i, sq_nonneg x]

theorem amplitude_sq {channels : List Channel} {E : ℝ} (r : Resonance) (c : Fin channels.length) :
    Spec.amplitude channels E r c ^ 2 ≤ (r.widths.map (· ^ 2)).sum := by
  have h := sq_le_sum r.widths c
  unfold Spec.amplitude
  split
  · nlinarith [sq_nonneg (r.widths.getD c 0)]
  · exact h

theorem rMatrix_more {channels : List Channel} {E : ℝ} (rs more : List Resonance)
    (c c' : Fin channels.length) :
    ‖Spec.rMatrix channels (rs ++ more) E c c' - Spec.rMatrix channels rs E c c'‖
      ≤ (more.map (Spec.strength E)).sum := by
  simp only [Spec.rMatrix, Matrix.of_apply, List.map_append, List.sum_append, add_sub_cancel_left]
  induction more with
  | nil => simp
  | cons r more ih =>
    rw [List.map_cons, List.sum_cons, List.map_cons, List.sum_cons]
    refine (norm_add_le _ _).trans (add_le_add ?_ ih)
    rw [norm_div, Spec.strength, ← Complex.ofReal_mul, Complex.norm_real, Real.norm_eq_abs]
    refine div_le_div_of_nonneg_right ?_ (norm_nonneg _)
    have h1 := amplitude_sq (E := E) r c
    have h2 := amplitude_sq (E := E) r c'
    rw [abs_le]
    constructor <;> nlinarith [sq_nonneg (Spec.amplitude channels E r c - Spec.amplitude channels E r c'),
      sq_nonneg (Spec.amplitude channels E r c + Spec.amplitude channels E r c')]

theorem rMatrix_order {channels : List Channel} {E : ℝ} {rs rs' : List Resonance} (h : rs.Perm rs') :
    Spec.rMatrix channels rs E = Spec.rMatrix channels rs' E := by
  ext c c'
  exact (h.map _).sum_eq

section

variable {option : BoundaryOption} {K : Constants} {lib : CoulombLibrary} {channels : List Channel}
  {rs : List Resonance} {E : ℝ} {P S w phi : Fin channels.length → ℝ}

/-- The formulas with further resonances of small strength. -/
theorem contribution_more (hev : Spec.Evaluable option K lib channels rs E P S w phi)
    (ids : List ReactionID) {ε : ℝ} (hε : 0 < ε) :
    ∃ δ > 0, ∀ rs', Spec.MoreResonances E δ channels rs rs' →
      Spec.Evaluable option K lib channels rs' E P S w phi ∧
      ∀ id ∈ ids, |Spec.contribution option K channels rs' E P S w phi id
        - Spec.contribution option K channels rs E P S w phi id| < ε := by
  classical
  let total : List Resonance → ℝ := fun more => (more.map (Spec.strength E)).sum
  have hR : Tendsto (fun more => Spec.rMatrix channels (rs ++ more) E) (comap total (𝓝 0))
      (𝓝 (Spec.rMatrix channels rs E)) := by
    rw [tendsto_matrix]
    intro c c'
    rw [tendsto_iff_norm_sub_tendsto_zero]
    exact squeeze_zero (fun _ => norm_nonneg _) (fun more => rMatrix_more rs more c c') tendsto_comap
  obtain ⟨h1, h2⟩ := contribution_of_level (option := option) (K := K) (w := w) (phi := phi) hR hev.invertible
  have h3 : ∀ᶠ more in comap total (𝓝 0), ∀ id ∈ ids.toFinset,
      |Spec.contribution option K channels (rs ++ more) E P S w phi id
        - Spec.contribution option K channels rs E P S w phi id| < ε := by
    rw [Finset.eventually_all]
    intro id _
    have := Metric.tendsto_nhds.mp (h2 id) ε hε
    simpa only [Real.dist_eq] using this
  obtain ⟨δ, hδ, hall⟩ := Metric.eventually_nhds_iff.mp (eventually_comap.mp (h1.and h3))
  refine ⟨δ, hδ, ?_⟩
  rintro rs' ⟨more, hperm, hmore, hsum⟩
  have hd : dist (total more) 0 < δ := by
    rw [Real.dist_eq, sub_zero, abs_of_nonneg (total_nonneg E more)]
    exact hsum
  obtain ⟨k1, k2⟩ := hall hd more rfl
  have hRR := rMatrix_order (channels := channels) (E := E) hperm
  have hcon : ∀ id, Spec.contribution option K channels rs' E P S w phi id
      = Spec.contribution option K channels (rs ++ more) E P S w phi id := by
    intro id
    unfold Spec.contribution Spec.tMatrix Spec.levelDenominator
    rw [hRR]
  have hmem : ∀ r ∈ rs', r ∈ rs ∨ r ∈ more := fun r hr => List.mem_append.mp (hperm.mem_iff.mp hr)
  refine ⟨⟨hev.penetrability, hev.shiftFactor, hev.coulomb, hev.phase, hev.nonneg, ?_, ?_, ?_,
    hev.waveNumber⟩, fun id hid => by rw [hcon]; exact k2 id (List.mem_toFinset.mpr hid)⟩
  · intro r hr
    exact (hmem r hr).elim (hev.widths r) fun h => (hmore r h).1
  · intro r hr
    exact (hmem r hr).elim (hev.noPole r) fun h => (hmore r h).2
  · unfold Spec.levelDenominator
    rw [hRR]
    exact k1

end

end Verif
