import Verif.Props.OldReichMooreAccepted
import Verif.Spec.Endf

/-!
# Property C31 for the older code: the radii that are chosen for an evaluation
-/

namespace Verif.Old

open Spec (prescribedRadii IsRadius RadiusSource)

/-- The parameters of a range of the formalism that the code is asked for. -/
def written : Level → Endf.BreitWigner → Endf.Parameters
  | .single, bw => .singleLevel bw
  | .multi, bw => .multiLevel bw

theorem select_written (level : Level) (bw : Endf.BreitWigner) :
    selectBreitWigner level (written level bw) = .ok bw := by
  cases level <;> rfl

/-- The table of radii that a range offers. -/
def offeredTable (tables : Endf.InterpolationLibrary) (nro : ℤ) (range : Endf.Range) :
    Option (ℝ → Outcome ℝ) :=
  if nro = 0 then none
  else match range.scatteringRadius with
    | none => none
    | some radius => match tableRadius tables radius with
      | .ok f => some f
      | .error _ => none

theorem isRadius_mass {A E : ℝ} (hA : 0 ≤ A) (ap : ℝ) (table : Option (ℝ → Outcome ℝ)) :
    IsRadius ap table (1.00866491582 * A) E (channelRadius A E) .mass := by
  have h : (0 : ℝ) ≤ 1.00866491582 * A := by positivity
  refine ⟨(1.00866491582 * A) ^ (1 / 3 : ℝ), Real.rpow_nonneg h _, ?_, ?_⟩
  · rw [← Real.rpow_natCast, ← Real.rpow_mul h]
    norm_num
  · unfold channelRadius
    rw [if_neg (not_lt.mpr h)]

/-- What is done with the radii. -/
def UsesRadii {α : Type} (ap : ℝ) (table : Option (ℝ → Outcome ℝ)) (mass : ℝ)
    (make : (ℝ → Outcome ℝ) → (ℝ → Outcome ℝ) → Outcome α) (out : Outcome α)
    (first second : RadiusSource) : Prop :=
  ∃ channel scattering, (∀ E, IsRadius ap table mass E (channel E) first) ∧
    (∀ E, IsRadius ap table mass E (scattering E) second) ∧ out = make channel scattering

variable {c : WaveConstant} {tables : Endf.InterpolationLibrary} {nro : ℤ} {range : Endf.Range}

theorem offeredTable_some {table : ℝ → Outcome ℝ} (h0 : nro ≠ 0)
    (ht : offeredTable tables nro range = some table) :
    ∃ radius, scatteringRadius range = .ok radius ∧ tableRadius tables radius = .ok table := by
  unfold offeredTable at ht
  rw [if_neg h0] at ht
  unfold scatteringRadius
  cases hr : range.scatteringRadius with
  | none =>
    rw [hr] at ht
    cases ht
  | some radius =>
    rw [hr] at ht
    dsimp only at ht
    refine ⟨radius, rfl, ?_⟩
    split at ht
    · rename_i f hf
      rw [hf, Option.some.inj ht]
    · cases ht

/-- C31: for the combinations of NRO and NAPS that are allowed the older Breit-Wigner code builds its system
with the prescribed radii.

Missing: an exception for the other combinations, see `C31_old_disproved`. -/
theorem C31_old_breit_wigner_partial {sort : Sorting Resonance.statisticalFactor} {level : Level}
    {bw : Endf.BreitWigner} {lv : Endf.BreitWignerLValue} {rest : List Endf.BreitWignerLValue}
    (hbw : range.parameters = written level bw) (hlv : bw.lValues = lv :: rest)
    (hA : 0 ≤ lv.awri) {table : ℝ → Outcome ℝ}
    (ht : nro ≠ 0 → offeredTable tables nro range = some table) {first second : RadiusSource}
    (hp : prescribedRadii (nro ≠ 0) range.naps = some (first, second)) :
    UsesRadii bw.ap (offeredTable tables nro range) (1.00866491582 * lv.awri)
      (build c sort level bw) (apply c sort tables level nro range) first second := by
  unfold apply
  rw [hbw, select_written, ok_bind, hlv]
  dsimp only
  by_cases h0 : nro = 0
  · rw [if_neg (by simpa using h0)]
    have h0' : (decide (nro ≠ 0)) = false := by simpa using h0
    rw [h0'] at hp
    by_cases n0 : range.naps = 0
    · rw [n0] at hp
      cases hp
      rw [if_pos n0]
      exact ⟨_, _, fun E => isRadius_mass hA _ _, fun E => rfl, rfl⟩
    · by_cases n1 : range.naps = 1
      · rw [n1] at hp
        cases hp
        rw [if_neg n0, if_pos n1]
        exact ⟨_, _, fun E => rfl, fun E => rfl, rfl⟩
      · unfold prescribedRadii at hp
        split at hp <;> simp_all
  · rw [if_pos h0]
    have h0' : (decide (nro ≠ 0)) = true := by simpa using h0
    rw [h0'] at hp
    have ht := ht h0
    obtain ⟨radius, hs1, hs2⟩ := offeredTable_some h0 ht
    rw [ht, hs1]
    simp only [ok_bind, hs2]
    by_cases n0 : range.naps = 0
    · rw [n0] at hp
      cases hp
      rw [if_pos n0]
      exact ⟨_, _, fun E => isRadius_mass hA _ _, fun E => ⟨_, rfl, rfl⟩, rfl⟩
    · by_cases n1 : range.naps = 1
      · rw [n1] at hp
        cases hp
        rw [if_neg n0, if_pos n1]
        exact ⟨_, _, fun E => ⟨_, rfl, rfl⟩, fun E => ⟨_, rfl, rfl⟩, rfl⟩
      · by_cases n2 : range.naps = 2
        · rw [n2] at hp
          cases hp
          rw [if_neg n0, if_neg n1, if_pos n2]
          exact ⟨_, _, fun E => rfl, fun E => ⟨_, rfl, rfl⟩, rfl⟩
        · unfold prescribedRadii at hp
          split at hp <;> simp_all

/-- C31: for the combinations of NRO and NAPS that are allowed the older Reich-Moore code builds its system
with the prescribed radii, and the radius of an l value, if it has one, replaces AP.

Missing: an exception for the other combinations, see `C31_old_disproved`. -/
theorem C31_old_reich_moore_partial {sort : Sorting ReichMoore.Resonance.flaggedStatisticalFactor}
    {rm : Endf.ReichMoore} {lv : Endf.ReichMooreLValue} {rest : List Endf.ReichMooreLValue}
    (hrm : range.parameters = .reichMoore rm) (hlv : rm.lValues = lv :: rest)
    (hA : 0 ≤ lv.awri) {table : ℝ → Outcome ℝ}
    (ht : nro ≠ 0 → offeredTable tables nro range = some table) {first second : RadiusSource}
    (hp : prescribedRadii (nro ≠ 0) range.naps = some (first, second)) :
    ∃ tag : ReichMoore.Tag, (tag.channel? ↔ first = .constant) ∧ (tag.scattering? ↔ second = .constant) ∧
      UsesRadii rm.ap (offeredTable tables nro range) (1.00866491582 * lv.awri)
        (fun channel scattering => ReichMoore.build c sort rm tag channel scattering tag.channel?)
        (ReichMoore.apply c sort tables nro range) first second := by
  unfold ReichMoore.apply
  rw [hrm, show ReichMoore.select (.reichMoore rm) = .ok rm from rfl, ok_bind, hlv]
  dsimp only
  by_cases h0 : nro = 0
  · rw [if_neg (by simpa using h0)]
    have h0' : (decide (nro ≠ 0)) = false := by simpa using h0
    rw [h0'] at hp
    by_cases n0 : range.naps = 0
    · rw [n0] at hp
      cases hp
      rw [if_pos n0]
      exact ⟨.scattering, by decide, by decide, _, _, fun E => isRadius_mass hA _ _, fun E => rfl, rfl⟩
    · by_cases n1 : range.naps = 1
      · rw [n1] at hp
        cases hp
        rw [if_neg n0, if_pos n1]
        exact ⟨.both, by decide, by decide, _, _, fun E => rfl, fun E => rfl, rfl⟩
      · unfold prescribedRadii at hp
        split at hp <;> simp_all
  · rw [if_pos h0]
    have h0' : (decide (nro ≠ 0)) = true := by simpa using h0
    rw [h0'] at hp
    have ht := ht h0
    obtain ⟨radius, hs1, hs2⟩ := offeredTable_some h0 ht
    rw [ht, hs1]
    simp only [ok_bind, hs2]
    by_cases n0 : range.naps = 0
    · rw [n0] at hp
      cases hp
      rw [if_pos n0]
      exact ⟨.neither, by decide, by decide, _, _, fun E => isRadius_mass hA _ _, fun E => ⟨_, rfl, rfl⟩, rfl⟩
    · by_cases n1 : range.naps = 1
      · rw [n1] at hp
        cases hp
        rw [if_neg n0, if_pos n1]
        exact ⟨.neither, by decide, by decide, _, _, fun E => ⟨_, rfl, rfl⟩, fun E => ⟨_, rfl, rfl⟩, rfl⟩
      · by_cases n2 : range.naps = 2
        · rw [n2] at hp
          cases hp
          rw [if_neg n0, if_neg n1, if_pos n2]
          exact ⟨.channel, by decide, by decide, _, _, fun E => rfl, fun E => ⟨_, rfl, rfl⟩, rfl⟩
        · unfold prescribedRadii at hp
          split at hp <;> simp_all

/-- C31 does not hold for the older code: for other values of NAPS it does not throw an exception, but its
functions end without a result. -/
theorem C31_old_disproved {sort : Sorting Resonance.statisticalFactor}
    {sort' : Sorting ReichMoore.Resonance.flaggedStatisticalFactor} {level : Level}
    (hp : prescribedRadii (nro ≠ 0) range.naps = none) :
    (∀ bw lv rest, range.parameters = written level bw → bw.lValues = lv :: rest →
      apply c sort tables level nro range = .error .undefined) ∧
    (∀ rm lv rest, range.parameters = .reichMoore rm → rm.lValues = lv :: rest →
      ReichMoore.apply c sort' tables nro range = .error .undefined) := by
  have hn : ∀ n, prescribedRadii (nro ≠ 0) n ≠ none → range.naps ≠ n := fun n h1 h2 => h1 (h2 ▸ hp)
  constructor
  · intro bw lv rest hbw hlv
    unfold apply
    rw [hbw, select_written, ok_bind, hlv]
    dsimp only
    by_cases h0 : nro = 0
    · rw [decide_eq_false (by simpa using h0)] at hn
      rw [if_neg (by simpa using h0), if_neg (hn 0 (by decide)), if_neg (hn 1 (by decide))]
    · rw [decide_eq_true h0] at hn
      rw [if_pos h0, if_neg (hn 0 (by decide)), if_neg (hn 1 (by decide)), if_neg (hn 2 (by decide))]
  · intro rm lv rest hrm hlv
    unfold ReichMoore.apply
    rw [hrm, show ReichMoore.select (.reichMoore rm) = .ok rm from rfl, ok_bind, hlv]
    dsimp only
    by_cases h0 : nro = 0
    · rw [decide_eq_false (by simpa using h0)] at hn
      rw [if_neg (by simpa using h0), if_neg (hn 0 (by decide)), if_neg (hn 1 (by decide))]
    · rw [decide_eq_true h0] at hn
      rw [if_pos h0, if_neg (hn 0 (by decide)), if_neg (hn 1 (by decide)), if_neg (hn 2 (by decide))]

/-- C31: the older code refuses, with an exception, a range whose flags call for a table of radii which it does
not have. -/
theorem C31_old_table {sort : Sorting Resonance.statisticalFactor}
    {sort' : Sorting ReichMoore.Resonance.flaggedStatisticalFactor} {level : Level} (h0 : nro ≠ 0)
    (hp : prescribedRadii true range.naps ≠ none) (hr : range.scatteringRadius = none) :
    (∀ bw lv rest, range.parameters = written level bw → bw.lValues = lv :: rest →
      apply c sort tables level nro range = .error .throws) ∧
    (∀ rm lv rest, range.parameters = .reichMoore rm → rm.lValues = lv :: rest →
      ReichMoore.apply c sort' tables nro range = .error .throws) := by
  have hn : range.naps = 0 ∨ range.naps = 1 ∨ range.naps = 2 := by
    by_contra hn
    push Not at hn
    refine hp ?_
    unfold prescribedRadii
    split <;> simp_all
  have hs : scatteringRadius range = .error .throws := by rw [scatteringRadius, hr]
  constructor
  · intro bw lv rest hbw hlv
    unfold apply
    rw [hbw, select_written, ok_bind, hlv]
    dsimp only
    rw [if_pos h0, hs]
    obtain n | n | n := hn <;> rw [n] <;> rfl
  · intro rm lv rest hrm hlv
    unfold ReichMoore.apply
    rw [hrm, show ReichMoore.select (.reichMoore rm) = .ok rm from rfl, ok_bind, hlv]
    dsimp only
    rw [if_pos h0, hs]
    obtain n | n | n := hn <;> rw [n] <;> rfl

/-- The range of the older examples with NRO = 1 but without a table. -/
example (c : WaveConstant) (tables : Endf.InterpolationLibrary)
    (sort : Sorting ReichMoore.Resonance.flaggedStatisticalFactor)
    (sort' : Sorting Resonance.statisticalFactor) :
    ReichMoore.apply c sort tables 1
      ⟨1, 100, 1, 3, 2, none, .reichMoore ReichMoore.exampleEvaluation⟩ = .error .throws :=
  (C31_old_table (sort := sort') (level := .single) (by decide) (by decide) rfl).2 _ _ _ rfl rfl

/-- C58: ranges of other formalisms are refused with an exception, and only these make the search for the
parameters fail. -/
theorem C58_formalism (c : WaveConstant) (sort : Sorting Resonance.statisticalFactor)
    (tables : Endf.InterpolationLibrary) (level : Level) (nro : ℤ) (range : Endf.Range)
    (h : ∀ bw, range.parameters ≠ written level bw) : apply c sort tables level nro range = .error .throws := by
  unfold apply
  obtain ⟨E₁, E₂, l, f, n, radius, p⟩ := range
  cases level <;> cases p
  all_goals first | rfl | exact absurd rfl (h _)

/-- C59: the older Reich-Moore code refuses ranges of other formalisms with an exception. -/
theorem C59_formalism (c : WaveConstant) (sort : Sorting ReichMoore.Resonance.flaggedStatisticalFactor)
    (tables : Endf.InterpolationLibrary) (nro : ℤ) (range : Endf.Range)
    (h : ∀ rm, range.parameters ≠ .reichMoore rm) :
    ReichMoore.apply c sort tables nro range = .error .throws := by
  unfold ReichMoore.apply
  obtain ⟨E₁, E₂, l, f, n, radius, p⟩ := range
  cases p
  all_goals first | rfl | exact absurd rfl (h _)

/-- A Reich-Moore range is refused by the Breit-Wigner code, and a Breit-Wigner range by the Reich-Moore code. -/
example (c : WaveConstant) (tables : Endf.InterpolationLibrary) (sort : Sorting Resonance.statisticalFactor)
    (sort' : Sorting ReichMoore.Resonance.flaggedStatisticalFactor) (rm : Endf.ReichMoore)
    (bw : Endf.BreitWigner) :
    apply c sort tables .multi 0 ⟨1, 100, 1, 3, 1, none, .reichMoore rm⟩ = .error .throws ∧
    apply c sort tables .multi 0 ⟨1, 100, 1, 1, 1, none, .singleLevel bw⟩ = .error .throws ∧
    ReichMoore.apply c sort' tables 0 ⟨1, 100, 1, 1, 1, none, .singleLevel bw⟩ = .error .throws :=
  ⟨C58_formalism _ _ _ _ _ _ (by simp [written]), C58_formalism _ _ _ _ _ _ (by simp [written]),
    C59_formalism _ _ _ _ _ (by simp)⟩

/-- For the example, with NRO = 0 and NAPS = 1, the radius AP is used. -/
example (c : WaveConstant) (tables : Endf.InterpolationLibrary)
    (sort : Sorting ReichMoore.Resonance.flaggedStatisticalFactor) :
    ∃ S, ReichMoore.apply c sort tables 0
        ⟨1, 100, 1, 3, 1, none, .reichMoore ReichMoore.exampleEvaluation⟩ = .ok S ∧
      ∀ E, 0 < E → ∃ x, S.evaluate c E = .ok x := by
  obtain ⟨tag, -, -, channel, scattering, h1, h2, h3⟩ := C31_old_reich_moore_partial (c := c)
    (tables := tables) (sort := sort) (nro := 0) (table := fun _ => .ok 0)
    (range := ⟨1, 100, 1, 3, 1, none, .reichMoore ReichMoore.exampleEvaluation⟩)
    (rm := ReichMoore.exampleEvaluation) rfl rfl (by norm_num) (fun h => absurd rfl h)
    (first := .constant) (second := .constant) (by decide)
  have e1 : channel = constantRadius 0.6 := funext h1
  have e2 : scattering = constantRadius 0.6 := funext h2
  rw [h3, e1, e2]
  exact ReichMoore.C59_exists ReichMoore.example_physical

end Verif.Old
