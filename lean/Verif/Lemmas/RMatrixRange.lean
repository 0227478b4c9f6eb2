import Verif.Spec.RMatrixRange
import Verif.Lemmas.BreitWignerRange
import Mathlib.LinearAlgebra.Matrix.SchurComplement

/-!
# Channel functions and embedded R-matrices
-/

namespace Verif

open Spec Complex

section

variable {K : Constants} {lib : CoulombLibrary} {c : Channel} {E v : ℝ}

theorem channelWave_eq : channelWave K c E = c.waveNumber K E := by
  unfold channelWave Channel.waveNumber
  rw [mul_comm E]

theorem charged_eta (ht : c.type = .charged) {η : ℝ} (h : c.eta K E = .ok η) : η = channelEta K c E := by
  unfold Channel.eta at h
  rw [if_pos ht] at h
  unfold Channel.sommerfeldParameter at h
  unfold channelEta
  simp only at h
  split at h
  · rename_i h0
    obtain rfl := Except.ok.inj h
    rw [h0]
    simp
  · split at h
    · cases h
    · rename_i h0
      rw [not_or] at h0
      obtain rfl := Except.ok.inj h
      rw [channelWave_eq]
      have := K.hbar_pos.ne'
      have := K.epsilon0_pos.ne'
      have := Real.pi_pos.ne'
      have h1 := h0.1
      have h2 := h0.2
      field_simp

theorem neutral_eta (ht : c.type ≠ .charged) : c.eta K E = .ok 0 := if_neg ht

theorem penetrabilityAt (h : c.penetrability K lib E = .ok v) : PenetrabilityAt K lib c E v := by
  cases ht : c.type with
  | neutron =>
    obtain ⟨hl, a, h1, h2⟩ := neutron_penetrability ht h
    simp only [PenetrabilityAt, ht]
    exact ⟨hl, a, h1, by rw [channelWave_eq]; exact h2⟩
  | charged =>
    unfold Channel.penetrability at h
    obtain ⟨η, h1, h⟩ := bind_ok.mp h
    obtain ⟨a, h2, h⟩ := bind_ok.mp h
    rw [ht] at h
    obtain ⟨w, h3, h⟩ := bind_ok.mp h
    simp only [PenetrabilityAt, ht]
    refine ⟨a, w, h2, ?_, ?_⟩
    · unfold WavesAt
      rw [← charged_eta ht h1, channelWave_eq]
      exact h3
    · rw [← Except.ok.inj h, channelWave_eq]
      simp only [sq]
  | photon =>
    unfold Channel.penetrability at h
    obtain ⟨η, h1, h⟩ := bind_ok.mp h
    obtain ⟨a, h2, h⟩ := bind_ok.mp h
    rw [ht] at h
    simp only [PenetrabilityAt, ht]
    exact (Except.ok.inj h).symm
  | fission =>
    unfold Channel.penetrability at h
    obtain ⟨η, h1, h⟩ := bind_ok.mp h
    obtain ⟨a, h2, h⟩ := bind_ok.mp h
    rw [ht] at h
    simp only [PenetrabilityAt, ht]
    exact (Except.ok.inj h).symm

theorem shiftFactorAt (hl : c.type = .neutron → c.numbers.l ≤ 4) (h : c.shiftFactor K lib E = .ok v) :
    ShiftFactorAt K lib c E v := by
  cases ht : c.type with
  | neutron =>
    obtain ⟨a, h1, h2⟩ := neutron_shiftFactor ht (hl ht) h
    simp only [ShiftFactorAt, ht]
    exact ⟨a, h1, by rw [channelWave_eq]; exact h2⟩
  | charged =>
    unfold Channel.shiftFactor at h
    obtain ⟨η, h1, h⟩ := bind_ok.mp h
    obtain ⟨a, h2, h⟩ := bind_ok.mp h
    rw [ht] at h
    obtain ⟨w, h3, h⟩ := bind_ok.mp h
    simp only [ShiftFactorAt, ht]
    refine ⟨a, w, h2, ?_, ?_⟩
    · unfold WavesAt
      rw [← charged_eta ht h1, channelWave_eq]
      exact h3
    · rw [← Except.ok.inj h, channelWave_eq]
      simp only [sq]
  | photon =>
    unfold Channel.shiftFactor at h
    obtain ⟨η, h1, h⟩ := bind_ok.mp h
    obtain ⟨a, h2, h⟩ := bind_ok.mp h
    rw [ht] at h
    simp only [ShiftFactorAt, ht]
    exact (Except.ok.inj h).symm
  | fission =>
    unfold Channel.shiftFactor at h
    obtain ⟨η, h1, h⟩ := bind_ok.mp h
    obtain ⟨a, h2, h⟩ := bind_ok.mp h
    rw [ht] at h
    simp only [ShiftFactorAt, ht]
    exact (Except.ok.inj h).symm

/-- The phase of the code is the documented one, except for charged channels. -/
theorem phaseAt (hl : c.type = .neutron → c.numbers.l ≤ 4) (h : c.phaseShift K lib E = .ok v) :
    ∃ φ, PhaseAt K lib c E φ ∧ (c.type ≠ .charged → φ = v) := by
  cases ht : c.type with
  | neutron =>
    obtain ⟨a, h1, h2⟩ := neutron_phaseShift ht (hl ht) h
    refine ⟨v, ?_, fun _ => rfl⟩
    simp only [PhaseAt, ht]
    exact ⟨a, h1, by rw [channelWave_eq]; exact h2⟩
  | charged =>
    unfold Channel.phaseShift at h
    obtain ⟨η, h1, h⟩ := bind_ok.mp h
    obtain ⟨a, h2, h⟩ := bind_ok.mp h
    rw [ht] at h
    obtain ⟨w, h3, h⟩ := bind_ok.mp h
    refine ⟨arg ⟨w.G, w.F⟩, ?_, fun h => absurd rfl h⟩
    simp only [PhaseAt, ht]
    refine ⟨a, w, h2, ?_, ?_⟩
    · unfold WavesAt
      rw [← charged_eta ht h1, channelWave_eq]
      exact h3
    · have hn : Real.sqrt (w.F ^ 2 + w.G ^ 2) = ‖(⟨w.G, w.F⟩ : ℂ)‖ := by
        rw [norm_def, normSq_mk]
        congr 1
        ring
      rw [hn]
      have h := norm_mul_cos_add_sin_mul_I (⟨w.G, w.F⟩ : ℂ)
      constructor
      · have := congrArg Complex.re h
        simpa [← ofReal_cos, ← ofReal_sin] using this.symm
      · have := congrArg Complex.im h
        simpa [← ofReal_cos, ← ofReal_sin] using this.symm
  | photon =>
    unfold Channel.phaseShift at h
    obtain ⟨η, h1, h⟩ := bind_ok.mp h
    obtain ⟨a, h2, h⟩ := bind_ok.mp h
    rw [ht] at h
    refine ⟨0, ?_, fun _ => Except.ok.inj h⟩
    simp only [PhaseAt, ht]
  | fission =>
    unfold Channel.phaseShift at h
    obtain ⟨η, h1, h⟩ := bind_ok.mp h
    obtain ⟨a, h2, h⟩ := bind_ok.mp h
    rw [ht] at h
    refine ⟨0, ?_, fun _ => Except.ok.inj h⟩
    simp only [PhaseAt, ht]

theorem coulomb_neutral (ht : c.type ≠ .charged) (h : c.coulombPhaseShift K E = .ok v) :
    v = 0 ∧ coulombAt K c E = 0 := by
  refine ⟨?_, if_neg ht⟩
  unfold Channel.coulombPhaseShift at h
  rw [neutral_eta ht] at h
  obtain ⟨η, -, h⟩ := bind_ok.mp h
  cases ht' : c.type with
  | charged => exact absurd ht' ht
  | neutron => rw [ht'] at h; exact (Except.ok.inj h).symm
  | photon => rw [ht'] at h; exact (Except.ok.inj h).symm
  | fission => rw [ht'] at h; exact (Except.ok.inj h).symm

end

/-! ## Embedded matrices -/

namespace Embedding

open Matrix

variable {k n : ℕ} {e : Fin k → Fin n}

/-- The matrix of an embedding of indices. -/
def matrix (e : Fin k → Fin n) : Matrix (Fin n) (Fin k) ℂ := Matrix.of fun i j => if i = e j then 1 else 0

theorem mul_apply (R : Matrix (Fin k) (Fin k) ℂ) (i j : Fin n) :
    (matrix e * R * (matrix e)ᵀ) i j = ∑ a, ∑ b, if i = e a ∧ j = e b then R a b else 0 := by
  simp only [Matrix.mul_apply, matrix, of_apply, transpose_apply, Finset.sum_mul]
  rw [Finset.sum_comm]
  refine Finset.sum_congr rfl fun a _ => Finset.sum_congr rfl fun b _ => ?_
  by_cases h1 : i = e a <;> by_cases h2 : j = e b <;> simp [h1, h2]

theorem embedded_apply (he : Function.Injective e) (R : Matrix (Fin k) (Fin k) ℂ) (a b : Fin k) :
    (matrix e * R * (matrix e)ᵀ) (e a) (e b) = R a b := by
  rw [mul_apply, Finset.sum_eq_single a, Finset.sum_eq_single b]
  · simp
  · intro b' _ hb
    rw [if_neg]
    rintro ⟨-, h⟩
    exact hb (he h).symm
  · simp
  · intro a' _ ha
    refine Finset.sum_eq_zero fun b' _ => ?_
    rw [if_neg]
    rintro ⟨h, -⟩
    exact ha (he h).symm
  · simp

theorem embedded_zero (R : Matrix (Fin k) (Fin k) ℂ) (i j : Fin n)
    (h : i ∉ Set.range e ∨ j ∉ Set.range e) : (matrix e * R * (matrix e)ᵀ) i j = 0 := by
  rw [mul_apply]
  refine Finset.sum_eq_zero fun a _ => Finset.sum_eq_zero fun b _ => ?_
  rw [if_neg]
  rintro ⟨rfl, rfl⟩
  rcases h with h | h
  · exact h ⟨a, rfl⟩
  · exact h ⟨b, rfl⟩

theorem eq_embedded (he : Function.Injective e) {R : Matrix (Fin n) (Fin n) ℂ}
    {r : Matrix (Fin k) (Fin k) ℂ} (h : ∀ a b, R (e a) (e b) = r a b)
    (h0 : ∀ i j, i ∉ Set.range e ∨ j ∉ Set.range e → R i j = 0) :
    R = matrix e * r * (matrix e)ᵀ := by
  ext i j
  by_cases hi : i ∈ Set.range e
  · by_cases hj : j ∈ Set.range e
    · obtain ⟨a, rfl⟩ := hi
      obtain ⟨b, rfl⟩ := hj
      rw [h, embedded_apply he]
    · rw [h0 i j (.inr hj), embedded_zero _ _ _ (.inr hj)]
  · rw [h0 i j (.inl hi), embedded_zero _ _ _ (.inl hi)]

theorem transpose_diagonal (he : Function.Injective e) (L : Fin n → ℂ) :
    (matrix e)ᵀ * diagonal L * matrix e = diagonal (L ∘ e) := by
  ext a b
  rw [Matrix.mul_apply]
  simp only [Matrix.mul_diagonal, transpose_apply, matrix, of_apply]
  rw [Finset.sum_eq_single (e a)]
  · by_cases h : a = b
    · simp [h]
    · have : e a ≠ e b := fun h' => h (he h')
      simp [h, this]
  · intro i _ hi
    simp [hi]
  · simp

/-- The level matrix of an R-matrix without some of the channels. -/
theorem level (he : Function.Injective e) {R : Matrix (Fin n) (Fin n) ℂ} {r : Matrix (Fin k) (Fin k) ℂ}
    {L : Fin n → ℂ} {l : Fin k → ℂ} (h : ∀ a b, R (e a) (e b) = r a b)
    (h0 : ∀ i j, i ∉ Set.range e ∨ j ∉ Set.range e → R i j = 0) (hl : ∀ a, L (e a) = l a)
    (hdet : (1 - r * diagonal l).det ≠ 0) :
    (1 - R * diagonal L).det ≠ 0 ∧
    (∀ a b, ((1 - R * diagonal L)⁻¹ * R) (e a) (e b) = ((1 - r * diagonal l)⁻¹ * r) a b) ∧
    ∀ i j, i ∉ Set.range e ∨ j ∉ Set.range e → ((1 - R * diagonal L)⁻¹ * R) i j = 0 := by
  have hR := eq_embedded he h h0
  have hL : (matrix e)ᵀ * diagonal L * matrix e = diagonal l := by
    rw [transpose_diagonal he]
    congr 1
    funext a
    exact hl a
  have hd : (1 - R * diagonal L).det = (1 - r * diagonal l).det := by
    rw [hR, Matrix.mul_assoc (matrix e * r), Matrix.mul_assoc (matrix e), Matrix.det_one_sub_mul_comm,
      Matrix.mul_assoc, hL]
  have hd' : (1 - R * diagonal L).det ≠ 0 := by rw [hd]; exact hdet
  have hu : IsUnit (1 - R * diagonal L).det := isUnit_iff_ne_zero.mpr hd'
  have hu' : IsUnit (1 - r * diagonal l).det := isUnit_iff_ne_zero.mpr hdet
  have hx : (1 - R * diagonal L) * (matrix e * ((1 - r * diagonal l)⁻¹ * r) * (matrix e)ᵀ) = R := by
    have h1 : (1 - r * diagonal l) * ((1 - r * diagonal l)⁻¹ * r) = r := by
      rw [← Matrix.mul_assoc, Matrix.mul_nonsing_inv _ hu', Matrix.one_mul]
    generalize (1 - r * diagonal l)⁻¹ * r = x at h1 ⊢
    rw [Matrix.sub_mul, Matrix.one_mul]
    have h2 : R * diagonal L * (matrix e * x * (matrix e)ᵀ)
        = matrix e * (r * diagonal l * x) * (matrix e)ᵀ := by
      rw [hR, ← hL]
      simp only [Matrix.mul_assoc]
    rw [h2, ← Matrix.sub_mul, ← Matrix.mul_sub]
    have h3 : x - r * diagonal l * x = r := by
      rw [Matrix.sub_mul, Matrix.one_mul] at h1
      exact h1
    rw [h3, ← hR]
  have hinv : (1 - R * diagonal L)⁻¹ * R = matrix e * ((1 - r * diagonal l)⁻¹ * r) * (matrix e)ᵀ := by
    have h4 := congrArg (fun M => (1 - R * diagonal L)⁻¹ * M) hx
    rw [← Matrix.mul_assoc, Matrix.nonsing_inv_mul _ hu, Matrix.one_mul] at h4
    exact h4.symm
  refine ⟨hd', fun a b => ?_, fun i j hij => ?_⟩
  · rw [hinv, embedded_apply he]
  · rw [hinv, embedded_zero _ _ _ hij]

end Embedding

end Verif
