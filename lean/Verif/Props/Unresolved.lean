import Verif.Lemmas.Unresolved
import Verif.Props.LegacyResolved

/-!
# Properties C37, C38, C49, C55 and C56: fluctuation integrals and unresolved cross sections
-/

namespace Verif

namespace Unresolved

open Spec

/-- The degrees of freedom are `unsigned int`s of 32 bits. -/
def Unsigned (degrees : Data ℕ) : Prop :=
  degrees.elastic < 2 ^ 32 ∧ degrees.capture < 2 ^ 32 ∧ degrees.fission < 2 ^ 32 ∧
    degrees.competition < 2 ^ 32

/-- The number that the weighted integrals add up to: the mean of the elastic fluctuations, times the
total weights of the other two. -/
noncomputable def ruleConstant (widths : Data ℝ) (degrees : Data ℕ) : ℝ :=
  average (column (degrees.elastic - 1)) (fun a => a)
    * average (fluctuations widths.fission degrees.fission) (fun _ => 1)
    * average (fluctuations widths.competition degrees.competition) fun _ => 1

/-! ## C55 -/

theorem cast_close {x a b : ℚ} (h : |x - a| ≤ b) : |(x : ℝ) - a| ≤ b := by exact_mod_cast h

/-- C55: each column of the quadrature is close to a chi-squared distribution with the respective
number of degrees of freedom, scaled to mean 1: the weights are not negative and add up to 1, the points
are positive, the mean is 1 and the second moment `1 + 2/ν`. -/
theorem C55_moments (ν : ℕ) (h1 : 1 ≤ ν) (h4 : ν ≤ 4) :
    (∀ p ∈ column (ν - 1), 0 < p.1 ∧ 0 ≤ p.2) ∧
    |average (column (ν - 1)) (fun _ => 1) - 1| ≤ 1 / 4000 ∧
    |average (column (ν - 1)) (fun a => a) - 1| ≤ 3 / 2500 ∧
    |average (column (ν - 1)) (fun a => a ^ 2) - (1 + 2 / (ν : ℝ))| ≤ 3 / 200 := by
  have hμ : ν - 1 < 4 := by omega
  refine ⟨fun p hp => column_pos hμ hp, ?_, ?_, ?_⟩
  · rw [average_column_cast _ _ (fun _ => 1) (by simp)]
    simpa using cast_close (moment_zero _ hμ)
  · rw [average_column_cast _ _ (fun x => x) (by simp)]
    simpa using cast_close (moment_one _ hμ)
  · rw [average_column_cast _ _ (fun x => x * x) (by intro x; push_cast; ring)]
    have := moment_two _ hμ
    have h5 : ((ν - 1 : ℕ) : ℚ) + 1 = ν := by
      rw [Nat.cast_sub h1]
      ring
    rw [h5] at this
    simpa using cast_close this

theorem fluctuations_total {width : ℝ} {n : ℕ} (h : width ≠ 0 → n ≤ 4) :
    |average (fluctuations width n) (fun _ => 1) - 1| ≤ 1 / 4000 := by
  unfold fluctuations
  by_cases h0 : width = 0
  · rw [if_pos h0]
    simp [average, fixed]
  · rw [if_neg h0, average_column_cast _ _ (fun _ => 1) (by simp)]
    have := moment_zero (n - 1) (by have := h h0; omega)
    simpa using cast_close this

/-! ## C37 -/

/-- C37: the four branches of the function all compute the same four averages of `x_n x_c / Γ` over the
independent fluctuations, `Γ = x_n Γ_n + Γ_γ + x_f Γ_f + x_x Γ_x`; a width that is zero does not
fluctuate. There is no value exactly if `Γ` vanishes for some combination. -/
theorem C37_averages {widths : Data ℝ} {degrees : Data ℕ} (h : InTables widths degrees) :
    let A := column (degrees.elastic - 1)
    let B := fluctuations widths.fission degrees.fission
    let C := fluctuations widths.competition degrees.competition
    (Regular widths A B C →
      calculateFluctuationIntegrals widths degrees = .ok (averages widths A B C)) ∧
    (¬ Regular widths A B C →
      calculateFluctuationIntegrals widths degrees = .error .notFinite) := integrals_eq h

/-- Success means that the tables are big enough and no denominator vanishes. -/
theorem integrals_ok {widths r : Data ℝ} {degrees : Data ℕ} (hu : Unsigned degrees)
    (h : calculateFluctuationIntegrals widths degrees = .ok r) : InTables widths degrees ∧
      Regular widths (column (degrees.elastic - 1)) (fluctuations widths.fission degrees.fission)
        (fluctuations widths.competition degrees.competition) ∧
      r = averages widths (column (degrees.elastic - 1))
        (fluctuations widths.fission degrees.fission)
        (fluctuations widths.competition degrees.competition) := by
  have h1 : InTables widths degrees := by
    by_contra h1
    rw [integrals_undefined hu.1 hu.2.2.1 hu.2.2.2 h1] at h
    cases h
  have h2 : Regular widths (column (degrees.elastic - 1)) (fluctuations widths.fission degrees.fission)
        (fluctuations widths.competition degrees.competition) := by
    by_contra h2
    rw [(integrals_eq h1).2 h2] at h
    cases h
  rw [(integrals_eq h1).1 h2] at h
  exact ⟨h1, h2, (Except.ok.inj h).symm⟩

/-- C37: whenever the function returns, the integrals weighted with their widths add up to a constant
that does not depend on the widths that are not zero. -/
theorem C37_sum_rule {widths r : Data ℝ} {degrees : Data ℕ} (hu : Unsigned degrees)
    (h : calculateFluctuationIntegrals widths degrees = .ok r) :
    widths.elastic * r.elastic + widths.capture * r.capture + widths.fission * r.fission
      + widths.competition * r.competition = ruleConstant widths degrees := by
  obtain ⟨-, hr, rfl⟩ := integrals_ok hu h
  unfold averages ruleConstant
  simp only [← average₃_mul, ← average₃_add]
  rw [← average₃_first]
  refine average₃_congr fun a ha b hb c hc => ?_
  have := hr a ha b hb c hc
  have h2 : totalWidth widths a.1 b.1 c.1 = a.1 * widths.elastic + widths.capture
    + b.1 * widths.fission + c.1 * widths.competition := rfl
  field_simp
  rw [h2]
  ring

/-- C37: the constant is that of every other set of widths with the same zeros, and it is 1 up to the
accuracy of the quadrature. -/
theorem C37_constant {widths : Data ℝ} {degrees : Data ℕ} (h : InTables widths degrees) :
    (∀ other : Data ℝ, (other.fission = 0 ↔ widths.fission = 0) →
      (other.competition = 0 ↔ widths.competition = 0) →
      ruleConstant other degrees = ruleConstant widths degrees) ∧
    |ruleConstant widths degrees - 1| ≤ 1 / 500 := by
  constructor
  · intro other h1 h2
    simp only [ruleConstant, fluctuations, h1, h2]
  · obtain ⟨-, -, h5, -⟩ := C55_moments degrees.elastic h.1 h.2.1
    have h6 := fluctuations_total h.2.2.1
    have h7 := fluctuations_total h.2.2.2
    unfold ruleConstant
    generalize average (column (degrees.elastic - 1)) (fun a => a) = x at *
    generalize average (fluctuations widths.fission degrees.fission) (fun _ => 1) = y at *
    generalize average (fluctuations widths.competition degrees.competition) (fun _ => 1) = z at *
    rw [abs_le] at *
    have hyz : 0 ≤ y * z := mul_nonneg (by linarith) (by linarith)
    have hyz1 : y * z ≤ (4001 / 4000) * (4001 / 4000) :=
      mul_le_mul (by linarith) (by linarith) (by linarith) (by norm_num)
    have hyz2 : (3999 / 4000) * (3999 / 4000) ≤ y * z :=
      mul_le_mul (by linarith) (by linarith) (by norm_num) (by linarith)
    have hx1 : x * (y * z) ≤ (2503 / 2500) * ((4001 / 4000) * (4001 / 4000)) :=
      mul_le_mul (by linarith) hyz1 hyz (by norm_num)
    have hx2 : (2497 / 2500) * ((3999 / 4000) * (3999 / 4000)) ≤ x * (y * z) :=
      mul_le_mul (by linarith) hyz2 (by norm_num) (by linarith)
    rw [mul_assoc]
    constructor <;> norm_num at * <;> linarith

/-- C37: for widths that are not negative the integrals are not negative. -/
theorem C37_nonneg {widths r : Data ℝ} {degrees : Data ℕ} (hu : Unsigned degrees)
    (hn : 0 ≤ widths.elastic) (hc : 0 ≤ widths.capture) (hf : 0 ≤ widths.fission)
    (hx : 0 ≤ widths.competition)
    (h : calculateFluctuationIntegrals widths degrees = .ok r) :
    0 ≤ r.elastic ∧ 0 ≤ r.capture ∧ 0 ≤ r.fission ∧ 0 ≤ r.competition := by
  obtain ⟨⟨h1, h4, h5, h6⟩, -, rfl⟩ := integrals_ok hu h
  have hA : ∀ p ∈ column (degrees.elastic - 1), 0 ≤ p.1 ∧ 0 ≤ p.2 := fun p hp =>
    let h := column_pos (by omega) hp
    ⟨h.1.le, h.2⟩
  have hB := fun p hp => fluctuations_nonneg (p := p) h5 hp
  have hC := fun p hp => fluctuations_nonneg (p := p) h6 hp
  have hD : ∀ a ∈ column (degrees.elastic - 1), ∀ b ∈ fluctuations widths.fission degrees.fission,
      ∀ c ∈ fluctuations widths.competition degrees.competition,
      0 ≤ totalWidth widths a.1 b.1 c.1 := by
    intro a ha b hb c hc'
    have h7 := (hA a ha).1
    have h8 := (hB b hb).1
    have h9 := (hC c hc').1
    unfold totalWidth
    positivity
  unfold averages
  refine ⟨?_, ?_, ?_, ?_⟩ <;> dsimp only <;>
  refine average₃_nonneg (fun p hp => (hA p hp).2) (fun p hp => (hB p hp).2)
    (fun p hp => (hC p hp).2) fun a ha b hb c hc => div_nonneg ?_ (hD a ha b hb c hc)
  · exact mul_nonneg (hA a ha).1 (hA a ha).1
  · exact (hA a ha).1
  · exact mul_nonneg (hA a ha).1 (hB b hb).1
  · exact mul_nonneg (hA a ha).1 (hC c hc).1

/-- C37: the integrals exist for all widths that are not negative, the elastic or the capture width being
positive, and one to four degrees of freedom. -/
theorem C37_exists {widths : Data ℝ} {degrees : Data ℕ} (h : InTables widths degrees)
    (hn : 0 ≤ widths.elastic) (hc : 0 ≤ widths.capture) (hf : 0 ≤ widths.fission)
    (hx : 0 ≤ widths.competition) (hpos : 0 < widths.elastic ∨ 0 < widths.capture) :
    ∃ r, calculateFluctuationIntegrals widths degrees = .ok r := by
  refine ⟨_, (integrals_eq h).1 ?_⟩
  intro a ha b hb c hc'
  have h7 := (column_pos (by have := h.1; have := h.2.1; omega) ha).1
  have h8 := (fluctuations_nonneg h.2.2.1 hb).1
  have h9 := (fluctuations_nonneg h.2.2.2 hc').1
  apply ne_of_gt
  unfold totalWidth
  rcases hpos with hpos | hpos <;> positivity

/-! ## C56 -/

/-- C56: the integrals are inversely proportional to a common scale of the widths: with widths in another
unit of energy they are the same quantities. -/
theorem C56_scaling {widths r : Data ℝ} {degrees : Data ℕ} (hu : Unsigned degrees) {s : ℝ}
    (hs : s ≠ 0) (h : calculateFluctuationIntegrals widths degrees = .ok r) :
    calculateFluctuationIntegrals
      ⟨s * widths.elastic, s * widths.capture, s * widths.fission, s * widths.competition⟩ degrees
      = .ok ⟨r.elastic / s, r.capture / s, r.fission / s, r.competition / s⟩ := by
  obtain ⟨h1, h2, rfl⟩ := integrals_ok hu h
  have e1 : ∀ a b c, totalWidth
      ⟨s * widths.elastic, s * widths.capture, s * widths.fission, s * widths.competition⟩ a b c
      = s * totalWidth widths a b c := by
    intro a b c
    unfold totalWidth
    ring
  have e2 : ∀ (x : ℝ) n, fluctuations (s * x) n = fluctuations x n := by
    intro x n
    unfold fluctuations
    simp [hs]
  have h3 : InTables
      ⟨s * widths.elastic, s * widths.capture, s * widths.fission, s * widths.competition⟩ degrees := by
    refine ⟨h1.1, h1.2.1, fun h => h1.2.2.1 fun h0 => h ?_, fun h => h1.2.2.2 fun h0 => h ?_⟩ <;>
      simp [h0]
  rw [(integrals_eq h3).1]
  · simp only [e2]
    have e3 : ∀ (A B C : Distribution) (f : ℝ → ℝ → ℝ → ℝ),
        average₃ A B C (fun a b c => f a b c / (s * totalWidth widths a b c))
        = average₃ A B C (fun a b c => f a b c / totalWidth widths a b c) / s := by
      intro A B C f
      rw [div_eq_inv_mul, ← average₃_mul]
      refine average₃_congr fun a _ b _ c _ => ?_
      rw [mul_comm s, ← div_div, div_eq_inv_mul _ s]
    simp only [averages, e1, e3]
  · simp only [e2]
    intro a ha b hb c hc
    rw [e1]
    exact mul_ne_zero hs (h2 a ha b hb c hc)

/-! ## C38 -/

/-- C38 as stated: no accepted table makes the fluctuation integrals read outside the quadrature
tables. -/
def C38_claim : Prop :=
  ∀ (interpolation : Interpolation) (resonances : List Resonance) (degrees : Data ℕ) (t : Table),
    makeTable interpolation resonances degrees = .ok t →
    ∀ widths : Data ℝ, calculateFluctuationIntegrals widths t.degrees ≠ .error .undefined

theorem makeTable_ok {interpolation : Interpolation} {resonances : List Resonance} {degrees : Data ℕ}
    {t : Table} (h : makeTable interpolation resonances degrees = .ok t) :
    t.resonances = resonances ∧ t.degrees = degrees ∧ 2 ≤ resonances.length ∧ degrees.elastic ≤ 4 ∧
      degrees.capture ≤ 4 ∧ degrees.fission ≤ 4 ∧ degrees.competition ≤ 4 := by
  unfold makeTable at h
  simp only [bind, Except.bind] at h
  split at h
  · cases h
  split at h
  · cases h
  split at h
  · cases h
  split at h
  · cases h
  split at h
  · cases h
  split at h
  · cases h
  rename_i hv
  simp only [pure, Except.pure, Except.ok.injEq] at h
  subst h
  unfold verifyTable at hv
  split_ifs at hv with h1 h2 h3 h4 h5
  exact ⟨rfl, rfl, by omega, by omega, by omega, by omega, by omega⟩

/-- C38: an accepted table makes the fluctuation integrals read outside the quadrature tables exactly
if it has zero degrees of freedom for the elastic width. -/
theorem C38_exactly {interpolation : Interpolation} {resonances : List Resonance}
    {degrees : Data ℕ} {t : Table} (h : makeTable interpolation resonances degrees = .ok t)
    (widths : Data ℝ) :
    calculateFluctuationIntegrals widths t.degrees = .error .undefined ↔ degrees.elastic = 0 := by
  obtain ⟨-, h2, -, h4, h5, h6, h7⟩ := makeTable_ok h
  rw [h2]
  constructor
  · intro hun
    by_contra h0
    have ht : InTables widths degrees := ⟨by omega, h4, fun _ => h6, fun _ => h7⟩
    by_cases hr : Regular widths (column (degrees.elastic - 1))
        (fluctuations widths.fission degrees.fission)
        (fluctuations widths.competition degrees.competition)
    · rw [(integrals_eq ht).1 hr] at hun
      cases hun
    · rw [(integrals_eq ht).2 hr] at hun
      simp at hun
  · intro h0
    refine integrals_undefined (by omega) (by omega) (by omega) fun ht => ?_
    have := ht.1
    omega

/-- C38 is false: zero degrees of freedom are accepted. -/
theorem C38_disproved : ¬ C38_claim := by
  intro h
  let r : Resonance := ⟨1, 1, 1, 1, 0, 0⟩
  have hm : makeTable (fun _ _ => .ok fun _ => .ok 1) [r, { r with energy := 2 }] ⟨0, 0, 0, 0⟩
      = .ok ⟨[r, { r with energy := 2 }], ⟨0, 0, 0, 0⟩, fun _ => .ok 1, fun _ => .ok 1, fun _ => .ok 1,
        fun _ => .ok 1, fun _ => .ok 1⟩ := rfl
  exact h _ _ _ _ hm ⟨1, 1, 0, 0⟩ ((C38_exactly hm _).mpr rfl)

/-- C38 for tables with at least one degree of freedom for the elastic width. Missing: the tables with
zero, where it is false (`C38_disproved`, `C38_exactly`). -/
theorem C38_partial {interpolation : Interpolation} {resonances : List Resonance}
    {degrees : Data ℕ} {t : Table} (h : makeTable interpolation resonances degrees = .ok t)
    (h1 : degrees.elastic ≠ 0) (widths : Data ℝ) :
    calculateFluctuationIntegrals widths t.degrees ≠ .error .undefined := fun hun =>
  h1 ((C38_exactly h widths).mp hun)

/-- C38: a table is accepted exactly if its interpolation tables can be made, it has two or more
resonances and no more than four degrees of freedom for any width. -/
theorem C38_accepted (interpolation : Interpolation) (resonances : List Resonance) (degrees : Data ℕ) :
    (∃ t, makeTable interpolation resonances degrees = .ok t) ↔
      (∀ f ∈ [Resonance.spacing, Resonance.elastic, Resonance.capture, Resonance.fission,
          Resonance.competition],
        ∃ g, interpolation (resonances.map Resonance.energy) (resonances.map f) = .ok g) ∧
      2 ≤ resonances.length ∧ degrees.elastic ≤ 4 ∧ degrees.capture ≤ 4 ∧ degrees.fission ≤ 4 ∧
        degrees.competition ≤ 4 := by
  constructor
  · rintro ⟨t, h⟩
    have := makeTable_ok h
    refine ⟨?_, this.2.2⟩
    unfold makeTable at h
    simp only [bind, Except.bind] at h
    split at h
    · cases h
    rename_i f1 h1
    split at h
    · cases h
    rename_i f2 h2
    split at h
    · cases h
    rename_i f3 h3
    split at h
    · cases h
    rename_i f4 h4
    split at h
    · cases h
    rename_i f5 h5
    simp only [List.mem_cons, List.not_mem_nil, or_false, forall_eq_or_imp, forall_eq]
    exact ⟨⟨f1, h1⟩, ⟨f2, h2⟩, ⟨f3, h3⟩, ⟨f4, h4⟩, ⟨f5, h5⟩⟩
  · rintro ⟨h, h6, h7, h8, h9, h10⟩
    simp only [List.mem_cons, List.not_mem_nil, or_false, forall_eq_or_imp, forall_eq] at h
    obtain ⟨⟨f1, h1⟩, ⟨f2, h2⟩, ⟨f3, h3⟩, ⟨f4, h4⟩, ⟨f5, h5⟩⟩ := h
    refine ⟨⟨resonances, degrees, f1, f2, f3, f4, f5⟩, ?_⟩
    unfold makeTable verifyTable
    simp only [h1, h2, h3, h4, h5, bind, Except.bind]
    rw [if_neg (by omega), if_neg (by omega), if_neg (by omega), if_neg (by omega), if_neg (by omega)]
    rfl

/-! ## C49 -/

/-- C49: the contributions of an unresolved spin group whose parameters at the energy are not negative:
capture and fission are not negative, the elastic contribution is not less than the interference term,
and all three add up to no more than `2π²/k² g Γn/D (c - 2 sin² φ)`, exactly that if there is no
competition, with a constant `c` that is 1 up to the accuracy of the quadrature. -/
theorem C49_contributions {K : Constants} {lib : CoulombLibrary} {E : ℝ} {g g' : SpinGroup}
    {m m' : LegacyMap} (hu : Unsigned g.table.degrees) (htype : g.channel.type = .neutron)
    (hR : ∀ R, g.channel.radii.penetrability E = .ok R → 0 ≤ R) (hg : 0 ≤ g.channel.spinFactor)
    (hpar : ∀ t, g.table.call E = .ok t →
      0 ≤ t.spacing ∧ 0 ≤ t.elastic ∧ 0 ≤ t.capture ∧ 0 ≤ t.fission ∧ 0 ≤ t.competition)
    (h : g.evaluate K lib E m = .ok (m', g')) :
    ∃ P φ R t c, g.channel.penetrability K lib E = .ok P ∧ g.channel.phaseShift K lib E = .ok φ ∧
      g.channel.radii.penetrability E = .ok R ∧ g.table.call E = .ok t ∧ |c - 1| ≤ 1 / 500 ∧
      let Γn := g.table.degrees.elastic * t.elastic * Real.sqrt E
        * (P / (g.channel.waveNumber K E * R))
      let F := 2 * Real.pi ^ 2 / g.channel.waveNumber K E ^ 2 * (g.channel.spinFactor / t.spacing) * Γn
      let change := fun kind => (m' (legacyID g.channel kind)).getD 0
        - (m (legacyID g.channel kind)).getD 0
      0 ≤ F ∧ 0 ≤ change .capture ∧ 0 ≤ change .fission ∧
        -(F * (2 * Real.sin φ ^ 2)) ≤ change .elastic ∧
        change .elastic + change .capture + change .fission ≤ F * (c - 2 * Real.sin φ ^ 2) ∧
        (t.competition = 0 →
          change .elastic + change .capture + change .fission = F * (c - 2 * Real.sin φ ^ 2)) ∧
        (t.fission = 0 → change .fission = 0) := by
  obtain ⟨P, φ, R, t, r, hP, hφ, hr, ht, -, hk, hR0, hE, hD, hint, hm⟩ := evaluate_ok h
  obtain ⟨p1, p2, p3, p4, p5⟩ := hpar t ht
  have hP0 : 0 ≤ P := BreitWigner.penetrability_nonneg htype hR hP
  have hR1 := hR R hr
  have hk0 : 0 ≤ g.channel.waveNumber K E := div_nonneg (Real.sqrt_nonneg _) K.hbar_pos.le
  have hg0 : (0 : ℝ) ≤ g.channel.spinFactor := by exact_mod_cast hg
  have hn : 0 ≤ t.elastic * Real.sqrt E * (g.table.degrees.elastic * P
      / (g.channel.waveNumber K E * R)) := by positivity
  have hpi := Real.pi_pos
  obtain ⟨i1, i2, i3, i4⟩ := C37_nonneg hu hn p3 p4 p5 hint
  have hrule := C37_sum_rule hu hint
  obtain ⟨-, hc⟩ := C37_constant (integrals_ok hu hint).1
  generalize ruleConstant _ _ = c at hrule hc
  refine ⟨P, φ, R, t, c, hP, hφ, hr, ht, hc, ?_⟩
  intro Γn F change
  have eΓ : t.elastic * Real.sqrt E * (g.table.degrees.elastic * P / (g.channel.waveNumber K E * R))
      = Γn := by
    simp only [Γn]
    ring
  simp only [eΓ] at hn hrule hm ⊢
  have hF : 0 ≤ F := by
    simp only [F]
    positivity
  have eF : 2 * Real.pi ^ 2 / g.channel.waveNumber K E ^ 2 * g.channel.spinFactor / t.spacing * Γn
      = F := by
    simp only [F]
    ring
  simp only [eF] at hm
  have n1 : ∀ k k' : LegacyKind, k ≠ k' → legacyID g.channel k ≠ legacyID g.channel k' := fun k k' hk h =>
    hk (legacyID_inj h)
  have c1 : change .elastic = F * (Γn * r.elastic - 2 * Real.sin φ ^ 2) := by
    simp only [change]
    rw [hm, if_pos rfl, if_neg (n1 _ _ (by decide)), if_neg (n1 _ _ (by decide))]
    ring
  have c2 : change .capture = F * (t.capture * r.capture) := by
    simp only [change]
    rw [hm, if_pos rfl, if_neg (n1 _ _ (by decide)), if_neg (n1 _ _ (by decide))]
    ring
  have c3 : change .fission = F * (t.fission * r.fission) := by
    simp only [change]
    rw [hm, if_pos rfl, if_neg (n1 _ _ (by decide)), if_neg (n1 _ _ (by decide))]
    ring
  have ctot : change .elastic + change .capture + change .fission
      = F * (c - 2 * Real.sin φ ^ 2) - F * (t.competition * r.competition) := by
    rw [c1, c2, c3, ← hrule]
    ring
  refine ⟨hF, ?_, ?_, ?_, ?_, ?_, ?_⟩
  · rw [c2]
    positivity
  · rw [c3]
    positivity
  · rw [c1]
    nlinarith [mul_nonneg hF (mul_nonneg hn i1)]
  · rw [ctot]
    nlinarith [mul_nonneg hF (mul_nonneg p5 i4)]
  · intro h0
    rw [ctot, h0]
    ring
  · intro h0
    rw [c3, h0]
    ring

end Unresolved

end Verif
