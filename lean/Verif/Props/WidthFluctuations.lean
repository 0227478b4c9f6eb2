import Verif.Lemmas.WidthFluctuations
import Verif.Props.UnresolvedGrid

/-!
# C100: what width fluctuations do to average cross sections

Hauser and Feshbach's average cross section without width fluctuations is `Γ_n Γ_c / T`, with the total
width `T = Γ_n + Γ_γ + Γ_f + Γ_x`. The integrals of the unresolved resonance region multiply this by
`r_c T`, where `r_c` is the integral for the reaction.
-/

namespace Verif

namespace Unresolved

open Spec

/-- The sum of the average widths. -/
def total (w : Data ℝ) : ℝ := w.elastic + w.capture + w.fission + w.competition

/-- The widths are not negative. -/
def Nonnegative (w : Data ℝ) : Prop :=
  0 ≤ w.elastic ∧ 0 ≤ w.capture ∧ 0 ≤ w.fission ∧ 0 ≤ w.competition

/-- The degrees of freedom of a width; none count as one. -/
def freedom (n : ℕ) : ℝ := (max n 1 : ℕ)

section

variable {w r : Data ℝ} {degrees : Data ℕ}

theorem positive (hw : Nonnegative w) (hu : Unsigned degrees)
    (h : calculateFluctuationIntegrals w degrees = .ok r) :
    ∀ a ∈ column (degrees.elastic - 1), ∀ b ∈ fluctuations w.fission degrees.fission,
      ∀ c ∈ fluctuations w.competition degrees.competition, 0 < totalWidth w a.1 b.1 c.1 := by
  obtain ⟨⟨h1, h4, h5, h6⟩, hr, -⟩ := integrals_ok hu h
  obtain ⟨n1, n2, n3, n4⟩ := hw
  intro a ha b hb c hc
  have i1 := (column_pos (by omega) ha).1.le
  have i2 := (fluctuations_nonneg h5 hb).1
  have i3 := (fluctuations_nonneg h6 hc).1
  refine lt_of_le_of_ne ?_ (hr a ha b hb c hc).symm
  unfold totalWidth
  positivity

/-- C100: fluctuations enhance compound elastic scattering: the elastic integral is not less than `1/T`,
whatever the other widths and degrees of freedom, up to the accuracy of the quadrature. -/
theorem C100_elastic (hw : Nonnegative w) (hu : Unsigned degrees)
    (h : calculateFluctuationIntegrals w degrees = .ok r) :
    1 - 1 / 100 ≤ r.elastic * total w := by
  have hpos := positive hw hu h
  obtain ⟨j1, -, -, -⟩ := C37_nonneg hu hw.1 hw.2.1 hw.2.2.1 hw.2.2.2 h
  obtain ⟨⟨h1, h4, h5, h6⟩, -, e⟩ := integrals_ok hu h
  obtain ⟨A, A'⟩ := column_moments h1 h4
  obtain ⟨B, -⟩ := fluctuations_moments h5
  obtain ⟨C, -⟩ := fluctuations_moments h6
  generalize column (degrees.elastic - 1) = DA at *
  generalize fluctuations w.fission degrees.fission = DB at *
  generalize fluctuations w.competition degrees.competition = DC at *
  have h7 := average₃_sq_le (p := fun a b c => a ^ 1 * (b ^ 0 * c ^ 0)) A.weights B.weights C.weights
    hpos
  have e1 : average₃ DA DB DC (fun a b c => (a ^ 1 * (b ^ 0 * c ^ 0)) ^ 2 / totalWidth w a b c)
      = r.elastic := by
    rw [e, averages]
    dsimp only
    refine average₃_congr fun a _ b _ c _ => ?_
    ring
  have e2 : average₃ DA DB DC (totalWidth w)
      = average₃ DA DB DC (fun a b c => a ^ 0 * (b ^ 0 * c ^ 0) * totalWidth w a b c) :=
    average₃_congr fun a _ b _ c _ => by ring
  rw [e1, e2, average₃_total, average₃_monomial] at h7
  have z1 : (0 : ℝ) ≤ 3999 / 4000 := by norm_num
  have k1 := mul3_le A.one_le B.zero_le C.zero_le A.one_nonneg (z1.trans B.zero_ge) (z1.trans C.zero_ge)
  have k2 := mul3_le A.zero_le B.zero_le C.zero_le (z1.trans A.zero_ge) (z1.trans B.zero_ge)
    (z1.trans C.zero_ge)
  have k3 := mul3_le A.zero_le B.one_le C.zero_le (z1.trans A.zero_ge) B.one_nonneg
    (z1.trans C.zero_ge)
  have k4 := mul3_le A.zero_le B.zero_le C.one_le (z1.trans A.zero_ge) (z1.trans B.zero_ge)
    C.one_nonneg
  have k5 := mul3_le A'.one_ge B.zero_ge C.zero_ge (by norm_num) (by norm_num) (by norm_num)
  obtain ⟨n1, n2, n3, n4⟩ := hw
  have k6 : w.elastic * (moment DA (0 + 1) * (moment DB 0 * moment DC 0))
        + (w.capture * (moment DA 0 * (moment DB 0 * moment DC 0))
        + (w.fission * (moment DA 0 * (moment DB (0 + 1) * moment DC 0))
        + w.competition * (moment DA 0 * (moment DB 0 * moment DC (0 + 1))))) ≤ 1002 / 1000 * total w := by
    have l1 := mul_le_mul_of_nonneg_left k1 n1
    have l2 := mul_le_mul_of_nonneg_left k2 n2
    have l3 := mul_le_mul_of_nonneg_left k3 n3
    have l4 := mul_le_mul_of_nonneg_left k4 n4
    unfold total
    norm_num at l1 l2 l3 l4 ⊢
    linarith
  have k7 := mul_le_mul_of_nonneg_left k6 j1
  have k8 : (2497 / 2500 * (3999 / 4000 * (3999 / 4000)) : ℝ) ^ 2
      ≤ (moment DA 1 * (moment DB 0 * moment DC 0)) ^ 2 := pow_le_pow_left₀ (by norm_num) k5 2
  norm_num at k8 k7 h7 ⊢
  linarith

/-- C100: fluctuations reduce capture by no more than the factor `T / (T + 2 Γ_n / ν_n)`. -/
theorem C100_capture_lower (hw : Nonnegative w) (hu : Unsigned degrees)
    (h : calculateFluctuationIntegrals w degrees = .ok r) :
    1 - 1 / 50 ≤ r.capture * (total w + 2 * w.elastic / degrees.elastic) := by
  have hpos := positive hw hu h
  obtain ⟨-, j1, -, -⟩ := C37_nonneg hu hw.1 hw.2.1 hw.2.2.1 hw.2.2.2 h
  obtain ⟨⟨h1, h4, h5, h6⟩, -, e⟩ := integrals_ok hu h
  obtain ⟨A, A'⟩ := column_moments h1 h4
  obtain ⟨B, -⟩ := fluctuations_moments h5
  obtain ⟨C, -⟩ := fluctuations_moments h6
  generalize column (degrees.elastic - 1) = DA at *
  generalize fluctuations w.fission degrees.fission = DB at *
  generalize fluctuations w.competition degrees.competition = DC at *
  have h7 := average₃_sq_le (p := fun a b c => a ^ 1 * (b ^ 0 * c ^ 0))
    (s := fun a b c => a ^ 1 * (b ^ 0 * c ^ 0) * totalWidth w a b c) A.weights B.weights C.weights
    fun a ha b hb c hc => by
      have := hpos a ha b hb c hc
      have := A'.points a ha
      positivity
  have e1 : average₃ DA DB DC (fun a b c => (a ^ 1 * (b ^ 0 * c ^ 0)) ^ 2
      / (a ^ 1 * (b ^ 0 * c ^ 0) * totalWidth w a b c)) = r.capture := by
    rw [e, averages]
    dsimp only
    refine average₃_congr fun a ha b hb c hc => ?_
    have h8 := (hpos a ha b hb c hc).ne'
    have h9 := (A'.points a ha).ne'
    simp only [pow_one, pow_zero, mul_one]
    field_simp
  rw [e1, average₃_total, average₃_monomial] at h7
  have z1 : (0 : ℝ) ≤ 3999 / 4000 := by norm_num
  have k1 := mul3_le A.two_le B.zero_le C.zero_le A.two_nonneg (z1.trans B.zero_ge) (z1.trans C.zero_ge)
  have k2 := mul3_le A.one_le B.zero_le C.zero_le A.one_nonneg (z1.trans B.zero_ge)
    (z1.trans C.zero_ge)
  have k3 := mul3_le A.one_le B.one_le C.zero_le A.one_nonneg B.one_nonneg
    (z1.trans C.zero_ge)
  have k4 := mul3_le A.one_le B.zero_le C.one_le A.one_nonneg (z1.trans B.zero_ge)
    C.one_nonneg
  have k5 := mul3_le A'.one_ge B.zero_ge C.zero_ge (by norm_num) (by norm_num) (by norm_num)
  obtain ⟨n1, n2, n3, n4⟩ := hw
  have k6 : w.elastic * (moment DA (1 + 1) * (moment DB 0 * moment DC 0))
        + (w.capture * (moment DA 1 * (moment DB 0 * moment DC 0))
        + (w.fission * (moment DA 1 * (moment DB (0 + 1) * moment DC 0))
        + w.competition * (moment DA 1 * (moment DB 0 * moment DC (0 + 1)))))
      ≤ 1011 / 1000 * (total w + 2 * w.elastic / degrees.elastic) := by
    have l1 := mul_le_mul_of_nonneg_left k1 n1
    have l2 := mul_le_mul_of_nonneg_left k2 n2
    have l3 := mul_le_mul_of_nonneg_left k3 n3
    have l4 := mul_le_mul_of_nonneg_left k4 n4
    have l5 : 0 ≤ w.elastic * (2 / (degrees.elastic : ℝ)) := by positivity
    have l6 : 2 * w.elastic / (degrees.elastic : ℝ) = w.elastic * (2 / (degrees.elastic : ℝ)) := by ring
    rw [l6]
    have l7 : w.elastic * ((1 + 2 / (degrees.elastic : ℝ)) * (101 / 100) * (4001 / 4000 * (4001 / 4000)))
      = (w.elastic + w.elastic * (2 / (degrees.elastic : ℝ))) * (101 / 100 * (4001 / 4000 * (4001 / 4000)))
      := by ring
    rw [l7] at l1
    unfold total
    norm_num only at l1 l2 l3 l4 ⊢
    linarith
  have k7 := mul_le_mul_of_nonneg_left k6 j1
  have k8 : (2497 / 2500 * (3999 / 4000 * (3999 / 4000)) : ℝ) ^ 2
      ≤ (moment DA 1 * (moment DB 0 * moment DC 0)) ^ 2 := pow_le_pow_left₀ (by norm_num) k5 2
  norm_num only at k8 k7 h7 ⊢
  linarith

/-- C100: fluctuations reduce fission by no more than the factor
`T / (T + 2 Γ_n / ν_n + 2 Γ_f / ν_f)`. -/
theorem C100_fission_lower (hw : Nonnegative w) (hu : Unsigned degrees)
    (h : calculateFluctuationIntegrals w degrees = .ok r) (hf : w.fission ≠ 0) :
    1 - 1 / 50 ≤ r.fission * (total w + 2 * w.elastic / degrees.elastic
      + 2 * w.fission / freedom degrees.fission) := by
  have hpos := positive hw hu h
  obtain ⟨-, -, j1, -⟩ := C37_nonneg hu hw.1 hw.2.1 hw.2.2.1 hw.2.2.2 h
  obtain ⟨⟨h1, h4, h5, h6⟩, -, e⟩ := integrals_ok hu h
  obtain ⟨A, A'⟩ := column_moments h1 h4
  obtain ⟨B, B'⟩ := fluctuations_moments h5
  obtain ⟨C, -⟩ := fluctuations_moments h6
  replace B' := B' hf
  have ef : freedom degrees.fission = (max degrees.fission 1 : ℕ) := rfl
  rw [ef]
  generalize max degrees.fission 1 = ν at *
  generalize column (degrees.elastic - 1) = DA at *
  generalize fluctuations w.fission degrees.fission = DB at *
  generalize fluctuations w.competition degrees.competition = DC at *
  have h7 := average₃_sq_le (p := fun a b c => a ^ 1 * (b ^ 1 * c ^ 0))
    (s := fun a b c => a ^ 1 * (b ^ 1 * c ^ 0) * totalWidth w a b c) A.weights B.weights C.weights
    fun a ha b hb c hc => by
      have := hpos a ha b hb c hc
      have := A'.points a ha
      have := B'.points b hb
      positivity
  have e1 : average₃ DA DB DC (fun a b c => (a ^ 1 * (b ^ 1 * c ^ 0)) ^ 2
      / (a ^ 1 * (b ^ 1 * c ^ 0) * totalWidth w a b c)) = r.fission := by
    rw [e, averages]
    dsimp only
    refine average₃_congr fun a ha b hb c hc => ?_
    have h8 := (hpos a ha b hb c hc).ne'
    have h9 := (A'.points a ha).ne'
    have h10 := (B'.points b hb).ne'
    simp only [pow_one, pow_zero, mul_one]
    field_simp
  rw [e1, average₃_total, average₃_monomial] at h7
  have z1 : (0 : ℝ) ≤ 3999 / 4000 := by norm_num
  have k1 := mul3_le A.two_le B.one_le C.zero_le A.two_nonneg B.one_nonneg (z1.trans C.zero_ge)
  have k2 := mul3_le A.one_le B.one_le C.zero_le A.one_nonneg B.one_nonneg (z1.trans C.zero_ge)
  have k3 := mul3_le A.one_le B.two_le C.zero_le A.one_nonneg B.two_nonneg (z1.trans C.zero_ge)
  have k4 := mul3_le A.one_le B.one_le C.one_le A.one_nonneg B.one_nonneg C.one_nonneg
  have k5 := mul3_le A'.one_ge B'.one_ge C.zero_ge (by norm_num) (by norm_num) (by norm_num)
  obtain ⟨n1, n2, n3, n4⟩ := hw
  have k6 : w.elastic * (moment DA (1 + 1) * (moment DB 1 * moment DC 0))
        + (w.capture * (moment DA 1 * (moment DB 1 * moment DC 0))
        + (w.fission * (moment DA 1 * (moment DB (1 + 1) * moment DC 0))
        + w.competition * (moment DA 1 * (moment DB 1 * moment DC (0 + 1)))))
      ≤ 1012 / 1000 * (total w + 2 * w.elastic / degrees.elastic + 2 * w.fission / (ν : ℝ)) := by
    have l1 := mul_le_mul_of_nonneg_left k1 n1
    have l2 := mul_le_mul_of_nonneg_left k2 n2
    have l3 := mul_le_mul_of_nonneg_left k3 n3
    have l4 := mul_le_mul_of_nonneg_left k4 n4
    have l5 : 0 ≤ w.elastic * (2 / (degrees.elastic : ℝ)) := by positivity
    have l6 : 2 * w.elastic / (degrees.elastic : ℝ) = w.elastic * (2 / (degrees.elastic : ℝ)) := by ring
    have m5 : 0 ≤ w.fission * (2 / (ν : ℝ)) := by positivity
    have m6 : 2 * w.fission / (ν : ℝ) = w.fission * (2 / (ν : ℝ)) := by ring
    rw [l6, m6]
    have l7 : w.elastic * ((1 + 2 / (degrees.elastic : ℝ)) * (101 / 100) * (2503 / 2500 * (4001 / 4000)))
      = (w.elastic + w.elastic * (2 / (degrees.elastic : ℝ))) * (101 / 100 * (2503 / 2500 * (4001 / 4000)))
      := by ring
    have m7 : w.fission * (2503 / 2500 * ((1 + 2 / (ν : ℝ)) * (101 / 100) * (4001 / 4000)))
      = (w.fission + w.fission * (2 / (ν : ℝ))) * (101 / 100 * (2503 / 2500 * (4001 / 4000)))
      := by ring
    rw [l7] at l1
    rw [m7] at l3
    unfold total
    norm_num only at l1 l2 l3 l4 ⊢
    linarith
  have k7 := mul_le_mul_of_nonneg_left k6 j1
  have k8 : (2497 / 2500 * (2497 / 2500 * (3999 / 4000)) : ℝ) ^ 2
      ≤ (moment DA 1 * (moment DB 1 * moment DC 0)) ^ 2 := pow_le_pow_left₀ (by norm_num) k5 2
  norm_num only at k8 k7 h7 ⊢
  linarith

/-- C100: fluctuations reduce competition by no more than the factor
`T / (T + 2 Γ_n / ν_n + 2 Γ_x / ν_x)`. -/
theorem C100_competition_lower (hw : Nonnegative w) (hu : Unsigned degrees)
    (h : calculateFluctuationIntegrals w degrees = .ok r) (hx : w.competition ≠ 0) :
    1 - 1 / 50 ≤ r.competition * (total w + 2 * w.elastic / degrees.elastic
      + 2 * w.competition / freedom degrees.competition) := by
  have hpos := positive hw hu h
  obtain ⟨-, -, -, j1⟩ := C37_nonneg hu hw.1 hw.2.1 hw.2.2.1 hw.2.2.2 h
  obtain ⟨⟨h1, h4, h5, h6⟩, -, e⟩ := integrals_ok hu h
  obtain ⟨A, A'⟩ := column_moments h1 h4
  obtain ⟨B, -⟩ := fluctuations_moments h5
  obtain ⟨C, C'⟩ := fluctuations_moments h6
  replace C' := C' hx
  have ef : freedom degrees.competition = (max degrees.competition 1 : ℕ) := rfl
  rw [ef]
  generalize max degrees.competition 1 = ν at *
  generalize column (degrees.elastic - 1) = DA at *
  generalize fluctuations w.fission degrees.fission = DB at *
  generalize fluctuations w.competition degrees.competition = DC at *
  have h7 := average₃_sq_le (p := fun a b c => a ^ 1 * (b ^ 0 * c ^ 1))
    (s := fun a b c => a ^ 1 * (b ^ 0 * c ^ 1) * totalWidth w a b c) A.weights B.weights C.weights
    fun a ha b hb c hc => by
      have := hpos a ha b hb c hc
      have := A'.points a ha
      have := C'.points c hc
      positivity
  have e1 : average₃ DA DB DC (fun a b c => (a ^ 1 * (b ^ 0 * c ^ 1)) ^ 2
      / (a ^ 1 * (b ^ 0 * c ^ 1) * totalWidth w a b c)) = r.competition := by
    rw [e, averages]
    dsimp only
    refine average₃_congr fun a ha b hb c hc => ?_
    have h8 := (hpos a ha b hb c hc).ne'
    have h9 := (A'.points a ha).ne'
    have h10 := (C'.points c hc).ne'
    simp only [pow_one, pow_zero, mul_one]
    field_simp
  rw [e1, average₃_total, average₃_monomial] at h7
  have z1 : (0 : ℝ) ≤ 3999 / 4000 := by norm_num
  have k1 := mul3_le A.two_le B.zero_le C.one_le A.two_nonneg (z1.trans B.zero_ge) C.one_nonneg
  have k2 := mul3_le A.one_le B.zero_le C.one_le A.one_nonneg (z1.trans B.zero_ge) C.one_nonneg
  have k3 := mul3_le A.one_le B.one_le C.one_le A.one_nonneg B.one_nonneg C.one_nonneg
  have k4 := mul3_le A.one_le B.zero_le C.two_le A.one_nonneg (z1.trans B.zero_ge) C.two_nonneg
  have k5 := mul3_le A'.one_ge B.zero_ge C'.one_ge (by norm_num) (by norm_num) (by norm_num)
  obtain ⟨n1, n2, n3, n4⟩ := hw
  have k6 : w.elastic * (moment DA (1 + 1) * (moment DB 0 * moment DC 1))
        + (w.capture * (moment DA 1 * (moment DB 0 * moment DC 1))
        + (w.fission * (moment DA 1 * (moment DB (0 + 1) * moment DC 1))
        + w.competition * (moment DA 1 * (moment DB 0 * moment DC (1 + 1)))))
      ≤ 1012 / 1000 * (total w + 2 * w.elastic / degrees.elastic + 2 * w.competition / (ν : ℝ)) := by
    have l1 := mul_le_mul_of_nonneg_left k1 n1
    have l2 := mul_le_mul_of_nonneg_left k2 n2
    have l3 := mul_le_mul_of_nonneg_left k3 n3
    have l4 := mul_le_mul_of_nonneg_left k4 n4
    have l5 : 0 ≤ w.elastic * (2 / (degrees.elastic : ℝ)) := by positivity
    have l6 : 2 * w.elastic / (degrees.elastic : ℝ) = w.elastic * (2 / (degrees.elastic : ℝ)) := by ring
    have m5 : 0 ≤ w.competition * (2 / (ν : ℝ)) := by positivity
    have m6 : 2 * w.competition / (ν : ℝ) = w.competition * (2 / (ν : ℝ)) := by ring
    rw [l6, m6]
    have l7 : w.elastic * ((1 + 2 / (degrees.elastic : ℝ)) * (101 / 100) * (4001 / 4000 * (2503 / 2500)))
      = (w.elastic + w.elastic * (2 / (degrees.elastic : ℝ))) * (101 / 100 * (2503 / 2500 * (4001 / 4000)))
      := by ring
    have m7 : w.competition * (2503 / 2500 * (4001 / 4000 * ((1 + 2 / (ν : ℝ)) * (101 / 100))))
      = (w.competition + w.competition * (2 / (ν : ℝ))) * (101 / 100 * (2503 / 2500 * (4001 / 4000)))
      := by ring
    rw [l7] at l1
    rw [m7] at l4
    unfold total
    norm_num only at l1 l2 l3 l4 ⊢
    linarith
  have k7 := mul_le_mul_of_nonneg_left k6 j1
  have k8 : (2497 / 2500 * (3999 / 4000 * (2497 / 2500)) : ℝ) ^ 2
      ≤ (moment DA 1 * (moment DB 0 * moment DC 1)) ^ 2 := pow_le_pow_left₀ (by norm_num) k5 2
  norm_num only at k8 k7 h7 ⊢
  linarith

/-- C100: without fission and competition, elastic scattering is enhanced by no more than the factor
`1 + (2/ν_n) Γ_γ / T`; with them the same holds for the sum of the elastic and capture widths. -/
theorem C100_elastic_upper (hw : Nonnegative w) (hu : Unsigned degrees)
    (h : calculateFluctuationIntegrals w degrees = .ok r) :
    r.elastic * (w.elastic + w.capture) ^ 2
      ≤ (1 + 1 / 50) * (w.elastic + w.capture + 2 * w.capture / degrees.elastic) := by
  have hpos := positive hw hu h
  obtain ⟨⟨h1, h4, h5, h6⟩, -, e⟩ := integrals_ok hu h
  obtain ⟨A, A'⟩ := column_moments h1 h4
  obtain ⟨B, -⟩ := fluctuations_moments h5
  obtain ⟨C, -⟩ := fluctuations_moments h6
  generalize column (degrees.elastic - 1) = DA at *
  generalize fluctuations w.fission degrees.fission = DB at *
  generalize fluctuations w.competition degrees.competition = DC at *
  obtain ⟨n1, n2, n3, n4⟩ := hw
  have h7 : (w.elastic + w.capture) ^ 2 * r.elastic
      ≤ w.elastic * (moment DA 1 * (moment DB 0 * moment DC 0))
        + w.capture * (moment DA 2 * (moment DB 0 * moment DC 0)) := by
    rw [e, averages]
    dsimp only
    simp only [← average₃_monomial, ← average₃_mul, ← average₃_add]
    refine average₃_mono A.weights B.weights C.weights fun a ha b hb c hc => ?_
    have a0 := A'.points a ha
    have b0 := B.points b hb
    have c0 := C.points c hc
    have L := hpos a ha b hb c hc
    rw [← mul_div_assoc, div_le_iff₀ L]
    have l1 : a.1 * w.elastic + w.capture ≤ totalWidth w a.1 b.1 c.1 := by
      unfold totalWidth
      nlinarith [mul_nonneg b0 n3, mul_nonneg c0 n4]
    have l2 : 0 ≤ w.elastic * a.1 + w.capture * a.1 ^ 2 := by positivity
    have l3 := mul_le_mul_of_nonneg_left l1 l2
    have l4 : 0 ≤ w.elastic * w.capture * a.1 * (a.1 - 1) ^ 2 := by positivity
    simp only [pow_zero, pow_one, mul_one]
    nlinarith
  have z1 : (0 : ℝ) ≤ 3999 / 4000 := by norm_num
  have k1 := mul3_le A.one_le B.zero_le C.zero_le A.one_nonneg (z1.trans B.zero_ge) (z1.trans C.zero_ge)
  have k2 := mul3_le A.two_le B.zero_le C.zero_le A.two_nonneg (z1.trans B.zero_ge)
    (z1.trans C.zero_ge)
  have l1 := mul_le_mul_of_nonneg_left k1 n1
  have l2 := mul_le_mul_of_nonneg_left k2 n2
  have l5 : 0 ≤ w.capture * (2 / (degrees.elastic : ℝ)) := by positivity
  have l6 : 2 * w.capture / (degrees.elastic : ℝ) = w.capture * (2 / (degrees.elastic : ℝ)) := by ring
  have l7 : w.capture * ((1 + 2 / (degrees.elastic : ℝ)) * (101 / 100) * (4001 / 4000 * (4001 / 4000)))
      = (w.capture + w.capture * (2 / (degrees.elastic : ℝ))) * (101 / 100 * (4001 / 4000 * (4001 / 4000)))
      := by ring
  rw [l6]
  rw [l7] at l2
  norm_num only at l1 l2 ⊢
  linarith

/-- C100: without fission and competition, fluctuations reduce capture. With them, the capture integral
is not more than `1 / (Γ_n + Γ_γ)`. -/
theorem C100_capture_upper (hw : Nonnegative w) (hu : Unsigned degrees)
    (h : calculateFluctuationIntegrals w degrees = .ok r) :
    r.capture * (w.elastic + w.capture) ≤ 1 + 1 / 100 := by
  have hpos := positive hw hu h
  obtain ⟨⟨h1, h4, h5, h6⟩, -, e⟩ := integrals_ok hu h
  obtain ⟨A, A'⟩ := column_moments h1 h4
  obtain ⟨B, -⟩ := fluctuations_moments h5
  obtain ⟨C, -⟩ := fluctuations_moments h6
  generalize column (degrees.elastic - 1) = DA at *
  generalize fluctuations w.fission degrees.fission = DB at *
  generalize fluctuations w.competition degrees.competition = DC at *
  obtain ⟨n1, n2, n3, n4⟩ := hw
  have h7 : (w.elastic + w.capture) ^ 2 * r.capture
      ≤ w.elastic * (moment DA 0 * (moment DB 0 * moment DC 0))
        + w.capture * (moment DA 1 * (moment DB 0 * moment DC 0)) := by
    rw [e, averages]
    dsimp only
    simp only [← average₃_monomial, ← average₃_mul, ← average₃_add]
    refine average₃_mono A.weights B.weights C.weights fun a ha b hb c hc => ?_
    have a0 := A'.points a ha
    have b0 := B.points b hb
    have c0 := C.points c hc
    have L := hpos a ha b hb c hc
    rw [← mul_div_assoc, div_le_iff₀ L]
    have l1 : a.1 * w.elastic + w.capture ≤ totalWidth w a.1 b.1 c.1 := by
      unfold totalWidth
      nlinarith [mul_nonneg b0 n3, mul_nonneg c0 n4]
    have l2 : 0 ≤ w.elastic + w.capture * a.1 := by positivity
    have l3 := mul_le_mul_of_nonneg_left l1 l2
    have l4 : 0 ≤ w.elastic * w.capture * (a.1 - 1) ^ 2 := by positivity
    simp only [pow_zero, pow_one, mul_one]
    nlinarith
  have z1 : (0 : ℝ) ≤ 3999 / 4000 := by norm_num
  have k1 := mul3_le A.zero_le B.zero_le C.zero_le (z1.trans A.zero_ge) (z1.trans B.zero_ge)
    (z1.trans C.zero_ge)
  have k2 := mul3_le A.one_le B.zero_le C.zero_le A.one_nonneg (z1.trans B.zero_ge)
    (z1.trans C.zero_ge)
  have l1 := mul_le_mul_of_nonneg_left k1 n1
  have l2 := mul_le_mul_of_nonneg_left k2 n2
  have s0 : 0 ≤ w.elastic + w.capture := by positivity
  have l3 : (r.capture * (w.elastic + w.capture)) * (w.elastic + w.capture)
      ≤ (1 + 1 / 100) * (w.elastic + w.capture) := by
    norm_num only at l1 l2 ⊢
    linarith
  rcases s0.eq_or_lt with h0 | h0
  · rw [← h0]
    norm_num
  · exact le_of_mul_le_mul_right l3 h0

/-- C100: without competition, fluctuations reduce fission. With it, the fission integral is not more than
`1 / (Γ_n + Γ_γ + Γ_f)`. -/
theorem C100_fission_upper (hw : Nonnegative w) (hu : Unsigned degrees)
    (h : calculateFluctuationIntegrals w degrees = .ok r) :
    r.fission * (w.elastic + w.capture + w.fission) ≤ 1 + 1 / 100 := by
  have hpos := positive hw hu h
  obtain ⟨⟨h1, h4, h5, h6⟩, -, e⟩ := integrals_ok hu h
  obtain ⟨A, A'⟩ := column_moments h1 h4
  obtain ⟨B, -⟩ := fluctuations_moments h5
  obtain ⟨C, -⟩ := fluctuations_moments h6
  generalize column (degrees.elastic - 1) = DA at *
  generalize fluctuations w.fission degrees.fission = DB at *
  generalize fluctuations w.competition degrees.competition = DC at *
  obtain ⟨n1, n2, n3, n4⟩ := hw
  have h7 : (w.elastic + w.capture + w.fission) ^ 2 * r.fission
      ≤ w.elastic * (moment DA 0 * (moment DB 1 * moment DC 0))
        + (w.capture * (moment DA 1 * (moment DB 1 * moment DC 0))
        + w.fission * (moment DA 1 * (moment DB 0 * moment DC 0))) := by
    rw [e, averages]
    dsimp only
    simp only [← average₃_monomial, ← average₃_mul, ← average₃_add]
    refine average₃_mono A.weights B.weights C.weights fun a ha b hb c hc => ?_
    have a0 := A'.points a ha
    have b0 := B.points b hb
    have c0 := C.points c hc
    have L := hpos a ha b hb c hc
    rw [← mul_div_assoc, div_le_iff₀ L]
    have l1 : a.1 * w.elastic + w.capture + b.1 * w.fission ≤ totalWidth w a.1 b.1 c.1 := by
      unfold totalWidth
      nlinarith [mul_nonneg c0 n4]
    have l2 : 0 ≤ w.elastic * b.1 + w.capture * (a.1 * b.1) + w.fission * a.1 := by positivity
    have l3 := mul_le_mul_of_nonneg_left l1 l2
    have l4 : 0 ≤ w.elastic * w.capture * b.1 * (a.1 - 1) ^ 2 := by positivity
    have l5 : 0 ≤ w.elastic * w.fission * (a.1 - b.1) ^ 2 := by positivity
    have l6 : 0 ≤ w.capture * w.fission * a.1 * (b.1 - 1) ^ 2 := by positivity
    simp only [pow_zero, pow_one, mul_one, one_mul]
    nlinarith
  have z1 : (0 : ℝ) ≤ 3999 / 4000 := by norm_num
  have k1 := mul3_le A.zero_le B.one_le C.zero_le (z1.trans A.zero_ge) B.one_nonneg
    (z1.trans C.zero_ge)
  have k2 := mul3_le A.one_le B.one_le C.zero_le A.one_nonneg B.one_nonneg (z1.trans C.zero_ge)
  have k3 := mul3_le A.one_le B.zero_le C.zero_le A.one_nonneg (z1.trans B.zero_ge)
    (z1.trans C.zero_ge)
  have l1 := mul_le_mul_of_nonneg_left k1 n1
  have l2 := mul_le_mul_of_nonneg_left k2 n2
  have l4 := mul_le_mul_of_nonneg_left k3 n3
  have s0 : 0 ≤ w.elastic + w.capture + w.fission := by positivity
  have l3 : (r.fission * (w.elastic + w.capture + w.fission)) * (w.elastic + w.capture + w.fission)
      ≤ (1 + 1 / 100) * (w.elastic + w.capture + w.fission) := by
    norm_num only at l1 l2 l4 ⊢
    linarith
  rcases s0.eq_or_lt with h0 | h0
  · rw [← h0]
    norm_num
  · exact le_of_mul_le_mul_right l3 h0

/-- C100: without fission, fluctuations reduce competition. With it, the competition integral is not more
than `1 / (Γ_n + Γ_γ + Γ_x)`. -/
theorem C100_competition_upper (hw : Nonnegative w) (hu : Unsigned degrees)
    (h : calculateFluctuationIntegrals w degrees = .ok r) :
    r.competition * (w.elastic + w.capture + w.competition) ≤ 1 + 1 / 100 := by
  have hpos := positive hw hu h
  obtain ⟨⟨h1, h4, h5, h6⟩, -, e⟩ := integrals_ok hu h
  obtain ⟨A, A'⟩ := column_moments h1 h4
  obtain ⟨B, -⟩ := fluctuations_moments h5
  obtain ⟨C, -⟩ := fluctuations_moments h6
  generalize column (degrees.elastic - 1) = DA at *
  generalize fluctuations w.fission degrees.fission = DB at *
  generalize fluctuations w.competition degrees.competition = DC at *
  obtain ⟨n1, n2, n3, n4⟩ := hw
  have h7 : (w.elastic + w.capture + w.competition) ^ 2 * r.competition
      ≤ w.elastic * (moment DA 0 * (moment DB 0 * moment DC 1))
        + (w.capture * (moment DA 1 * (moment DB 0 * moment DC 1))
        + w.competition * (moment DA 1 * (moment DB 0 * moment DC 0))) := by
    rw [e, averages]
    dsimp only
    simp only [← average₃_monomial, ← average₃_mul, ← average₃_add]
    refine average₃_mono A.weights B.weights C.weights fun a ha b hb c hc => ?_
    have a0 := A'.points a ha
    have b0 := B.points b hb
    have c0 := C.points c hc
    have L := hpos a ha b hb c hc
    rw [← mul_div_assoc, div_le_iff₀ L]
    have l1 : a.1 * w.elastic + w.capture + c.1 * w.competition ≤ totalWidth w a.1 b.1 c.1 := by
      unfold totalWidth
      nlinarith [mul_nonneg b0 n3]
    have l2 : 0 ≤ w.elastic * c.1 + w.capture * (a.1 * c.1) + w.competition * a.1 := by positivity
    have l3 := mul_le_mul_of_nonneg_left l1 l2
    have l4 : 0 ≤ w.elastic * w.capture * c.1 * (a.1 - 1) ^ 2 := by positivity
    have l5 : 0 ≤ w.elastic * w.competition * (a.1 - c.1) ^ 2 := by positivity
    have l6 : 0 ≤ w.capture * w.competition * a.1 * (c.1 - 1) ^ 2 := by positivity
    simp only [pow_zero, pow_one, mul_one, one_mul]
    nlinarith
  have z1 : (0 : ℝ) ≤ 3999 / 4000 := by norm_num
  have k1 := mul3_le A.zero_le B.zero_le C.one_le (z1.trans A.zero_ge) (z1.trans B.zero_ge)
    C.one_nonneg
  have k2 := mul3_le A.one_le B.zero_le C.one_le A.one_nonneg (z1.trans B.zero_ge) C.one_nonneg
  have k3 := mul3_le A.one_le B.zero_le C.zero_le A.one_nonneg (z1.trans B.zero_ge)
    (z1.trans C.zero_ge)
  have l1 := mul_le_mul_of_nonneg_left k1 n1
  have l2 := mul_le_mul_of_nonneg_left k2 n2
  have l4 := mul_le_mul_of_nonneg_left k3 n4
  have s0 : 0 ≤ w.elastic + w.capture + w.competition := by positivity
  have l3 : (r.competition * (w.elastic + w.capture + w.competition))
      * (w.elastic + w.capture + w.competition)
      ≤ (1 + 1 / 100) * (w.elastic + w.capture + w.competition) := by
    norm_num only at l1 l2 l4 ⊢
    linarith
  rcases s0.eq_or_lt with h0 | h0
  · rw [← h0]
    norm_num
  · exact le_of_mul_le_mul_right l3 h0

end

/-- C100: with fission, fluctuations may raise capture: this is why the bound on capture leaves the fission
width out. Here they raise it tenfold. -/
theorem C100_capture_may_rise : ∃ (w r : Data ℝ) (degrees : Data ℕ), Nonnegative w ∧ Unsigned degrees ∧
    calculateFluctuationIntegrals w degrees = .ok r ∧ 10 < r.capture * total w := by
  have hin : InTables ⟨1 / 1000, 1 / 100, 1, 0⟩ ⟨1, 0, 1, 0⟩ :=
    ⟨by decide, by decide, fun _ => by decide, fun _ => by decide⟩
  obtain ⟨r, hr⟩ := C37_exists hin (by norm_num) (by norm_num) (by norm_num) (by norm_num)
    (.inl (by norm_num))
  have hu : Unsigned ⟨1, 0, 1, 0⟩ := ⟨by decide, by decide, by decide, by decide⟩
  refine ⟨_, r, _, ⟨by norm_num, by norm_num, by norm_num, by norm_num⟩, hu, hr, ?_⟩
  obtain ⟨-, -, e⟩ := integrals_ok hu hr
  have e1 : r.capture = average₃ (column 0) (column 0) fixed fun a b c =>
      a / totalWidth ⟨1 / 1000, 1 / 100, 1, 0⟩ a b c := by
    rw [e, averages]
    simp only [fluctuations]
    rw [if_neg (by norm_num), if_pos trivial]
  rw [e1]
  unfold average₃
  rw [average_column_cast 0 _ (fun x => ((List.range 10).map fun i =>
      w i 0 * (fun y => x / (x * (1 / 1000) + 1 / 100 + y)) (q i 0)).sum)]
  · have h1 : (10 : ℚ) < ((List.range 10).map fun i => w i 0 * (fun x => ((List.range 10).map fun i =>
        w i 0 * (fun y => x / (x * (1 / 1000) + 1 / 100 + y)) (q i 0)).sum) (q i 0)).sum
          * (1 / 1000 + 1 / 100 + 1 + 0) := by
      decide +kernel
    have h2 : total ⟨1 / 1000, 1 / 100, 1, 0⟩ = ((1 / 1000 + 1 / 100 + 1 + 0 : ℚ) : ℝ) := by
      unfold total
      push_cast
      ring
    rw [h2]
    exact_mod_cast h1
  · intro x
    rw [average_column_cast 0 _ fun y => x / (x * (1 / 1000) + 1 / 100 + y)]
    intro y
    simp [average, fixed, totalWidth]

/-- C100: what this means for the cross sections. A spin group adds to each cross section; without width
fluctuations these contributions would be `F Γ_γ / T` to capture, `F Γ_f / T` to fission and
`F (Γ_n / T - 2 sin² φ)` to elastic scattering. -/
theorem C100_cross_sections {K : Constants} {lib : CoulombLibrary} {E : ℝ} {g g' : SpinGroup}
    {m m' : LegacyMap} (hu : Unsigned g.table.degrees) (htype : g.channel.type = .neutron)
    (hR : ∀ R, g.channel.radii.penetrability E = .ok R → 0 ≤ R) (hg : 0 ≤ g.channel.spinFactor)
    (hpar : ∀ t, g.table.call E = .ok t →
      0 ≤ t.spacing ∧ 0 ≤ t.elastic ∧ 0 ≤ t.capture ∧ 0 ≤ t.fission ∧ 0 ≤ t.competition)
    (h : g.evaluate K lib E m = .ok (m', g')) :
    ∃ P φ R t, g.channel.penetrability K lib E = .ok P ∧ g.channel.phaseShift K lib E = .ok φ ∧
      g.channel.radii.penetrability E = .ok R ∧ g.table.call E = .ok t ∧
      let ν := g.table.degrees.elastic
      let Γn := ν * t.elastic * Real.sqrt E * (P / (g.channel.waveNumber K E * R))
      let F := 2 * Real.pi ^ 2 / g.channel.waveNumber K E ^ 2 * (g.channel.spinFactor / t.spacing) * Γn
      let T := Γn + t.capture + t.fission + t.competition
      let change := fun kind => (m' (legacyID g.channel kind)).getD 0
        - (m (legacyID g.channel kind)).getD 0
      (1 - 1 / 100) * (F * Γn) ≤ (change .elastic + F * (2 * Real.sin φ ^ 2)) * T ∧
      (1 - 1 / 50) * (F * t.capture) ≤ change .capture * (T + 2 * Γn / ν) ∧
      change .capture * (Γn + t.capture) ≤ (1 + 1 / 100) * (F * t.capture) ∧
      (1 - 1 / 50) * (F * t.fission) ≤ change .fission * (T + 2 * Γn / ν
        + 2 * t.fission / freedom g.table.degrees.fission) ∧
      change .fission * (Γn + t.capture + t.fission) ≤ (1 + 1 / 100) * (F * t.fission) := by
  obtain ⟨P, φ, R, t, r, hP, hφ, hr, ht, -, hk, hR0, hE, hD, hint, hm⟩ := evaluate_ok h
  obtain ⟨p1, p2, p3, p4, p5⟩ := hpar t ht
  have hP0 : 0 ≤ P := BreitWigner.penetrability_nonneg htype hR hP
  have hR1 := hR R hr
  have hk0 : 0 ≤ g.channel.waveNumber K E := div_nonneg (Real.sqrt_nonneg _) K.hbar_pos.le
  have hg0 : (0 : ℝ) ≤ g.channel.spinFactor := by exact_mod_cast hg
  have hn : 0 ≤ t.elastic * Real.sqrt E * (g.table.degrees.elastic * P
      / (g.channel.waveNumber K E * R)) := by positivity
  have hw : Nonnegative ⟨t.elastic * Real.sqrt E * (g.table.degrees.elastic * P
      / (g.channel.waveNumber K E * R)), t.capture, t.fission, t.competition⟩ := ⟨hn, p3, p4, p5⟩
  have hpi := Real.pi_pos
  refine ⟨P, φ, R, t, hP, hφ, hr, ht, ?_⟩
  intro ν Γn F T change
  have i1 := C100_elastic hw hu hint
  have i2 := C100_capture_lower hw hu hint
  have i3 := C100_capture_upper hw hu hint
  have i4 := C100_fission_lower hw hu hint
  have i5 := C100_fission_upper hw hu hint
  unfold total at i1 i2 i4
  have eΓ : t.elastic * Real.sqrt E * (g.table.degrees.elastic * P / (g.channel.waveNumber K E * R))
      = Γn := by
    simp only [Γn, ν]
    ring
  have eν : g.table.degrees.elastic = ν := rfl
  simp only [eΓ] at hn hm i1 i2 i3 i4 i5
  rw [eν] at i2 i4
  have hF : 0 ≤ F := by
    simp only [F]
    positivity
  have eF : 2 * Real.pi ^ 2 / g.channel.waveNumber K E ^ 2 * g.channel.spinFactor / t.spacing * Γn
      = F := by
    simp only [F]
    ring
  simp only [eF] at hm
  have n1 : ∀ k k' : LegacyKind, k ≠ k' → legacyID g.channel k ≠ legacyID g.channel k' := fun k k' hk h =>
    hk (legacyID_inj h)
  have c1 : change .elastic = F * (Γn * r.elastic - 2 * Real.sin φ ^ 2) := by
    simp only [change]
    rw [hm, if_pos rfl, if_neg (n1 _ _ (by decide)), if_neg (n1 _ _ (by decide))]
    ring
  have c2 : change .capture = F * (t.capture * r.capture) := by
    simp only [change]
    rw [hm, if_pos rfl, if_neg (n1 _ _ (by decide)), if_neg (n1 _ _ (by decide))]
    ring
  have c3 : change .fission = F * (t.fission * r.fission) := by
    simp only [change]
    rw [hm, if_pos rfl, if_neg (n1 _ _ (by decide)), if_neg (n1 _ _ (by decide))]
    ring
  have g1 := mul_nonneg hF hn
  have g2 := mul_nonneg hF p3
  have g3 := mul_nonneg hF p4
  rw [c1, c2, c3]
  refine ⟨?_, ?_, ?_, ?_, ?_⟩
  · have := mul_le_mul_of_nonneg_left i1 g1
    simp only [T]
    linarith
  · have := mul_le_mul_of_nonneg_left i2 g2
    simp only [T]
    linarith
  · have := mul_le_mul_of_nonneg_left i3 g2
    linarith
  · by_cases hf : t.fission = 0
    · rw [hf]
      simp
    · have := mul_le_mul_of_nonneg_left (i4 hf) g3
      simp only [T]
      linarith
  · have := mul_le_mul_of_nonneg_left i5 g3
    linarith

/-- Three kinds of fluctuating widths at once: a case of the bounds on the integrals. -/
example : ∃ r, calculateFluctuationIntegrals ⟨1, 1 / 10, 1 / 2, 3⟩ ⟨1, 0, 2, 4⟩ = .ok r ∧
    1 - 1 / 100 ≤ r.elastic * (1 + 1 / 10 + 1 / 2 + 3) := by
  have hin : InTables ⟨1, 1 / 10, 1 / 2, 3⟩ ⟨1, 0, 2, 4⟩ :=
    ⟨by decide, by decide, fun _ => by decide, fun _ => by decide⟩
  obtain ⟨r, hr⟩ := C37_exists hin (by norm_num) (by norm_num) (by norm_num) (by norm_num)
    (.inl (by norm_num))
  exact ⟨r, hr, C100_elastic ⟨by norm_num, by norm_num, by norm_num, by norm_num⟩
    ⟨by decide, by decide, by decide, by decide⟩ hr⟩

/-- A group with fission and competition is a case of the bounds on the cross sections. -/
example (lib : CoulombLibrary) (m : LegacyMap) :
    (∃ m', Example.group.evaluate Verif.Example.constants lib 2 m = .ok (m', Example.group)) ∧
    Unsigned Example.group.table.degrees ∧ Example.group.channel.type = .neutron ∧
    (∀ R, Example.group.channel.radii.penetrability 2 = .ok R → 0 ≤ R) ∧
    0 ≤ Example.group.channel.spinFactor ∧
    ∀ t, Example.group.table.call 2 = .ok t →
      0 ≤ t.spacing ∧ 0 ≤ t.elastic ∧ 0 ≤ t.capture ∧ 0 ≤ t.fission ∧ 0 ≤ t.competition := by
  refine ⟨Example.evaluates lib m, ⟨by decide, by decide, by decide, by decide⟩, rfl, ?_, ?_, ?_⟩
  · intro R hR
    have : (1 : ℝ) = R := Except.ok.inj hR
    rw [← this]
    norm_num
  · show (0 : ℚ) ≤ statisticalSpinFactor (1 / 2) (1 / 2) 0
    norm_num [statisticalSpinFactor]
  · intro t ht
    rw [show Example.group.table.call 2 = .ok Example.parameters from Example.table_call] at ht
    rw [← Except.ok.inj ht]
    norm_num [Example.parameters]

end Unresolved

end Verif
