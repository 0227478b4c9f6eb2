import Verif.Model.Unresolved
import Verif.Spec.Unresolved
import Verif.Lemmas.LegacySystem
import Mathlib.Tactic.NormNum
import Mathlib.Tactic.IntervalCases

/-!
# Lemmas about fluctuation integrals
-/

namespace Verif

namespace Spec

theorem average_congr {D : Distribution} {f g : ℝ → ℝ} (h : ∀ p ∈ D, f p.1 = g p.1) :
    average D f = average D g := by
  unfold average
  congr 1
  exact List.map_congr_left fun p hp => by rw [h p hp]

theorem average_add (D : Distribution) (f g : ℝ → ℝ) :
    average D (fun x => f x + g x) = average D f + average D g := by
  unfold average
  induction D with
  | nil => simp
  | cons p D ih => simp only [List.map_cons, List.sum_cons, ih]; ring

theorem average_mul (D : Distribution) (c : ℝ) (f : ℝ → ℝ) :
    average D (fun x => c * f x) = c * average D f := by
  unfold average
  induction D with
  | nil => simp
  | cons p D ih => simp only [List.map_cons, List.sum_cons, ih]; ring

theorem average_const (D : Distribution) (c : ℝ) :
    average D (fun _ => c) = c * average D fun _ => 1 := by
  rw [← average_mul]
  simp

theorem average_nonneg {D : Distribution} {f : ℝ → ℝ} (hD : ∀ p ∈ D, 0 ≤ p.2)
    (h : ∀ p ∈ D, 0 ≤ f p.1) : 0 ≤ average D f :=
  List.sum_nonneg fun x hx => by
    obtain ⟨p, hp, rfl⟩ := List.mem_map.mp hx
    exact mul_nonneg (hD p hp) (h p hp)

theorem average₃_congr {A B C : Distribution} {f g : ℝ → ℝ → ℝ → ℝ}
    (h : ∀ a ∈ A, ∀ b ∈ B, ∀ c ∈ C, f a.1 b.1 c.1 = g a.1 b.1 c.1) :
    average₃ A B C f = average₃ A B C g :=
  average_congr fun a ha => average_congr fun b hb => average_congr fun c hc => h a ha b hb c hc

theorem average₃_add (A B C : Distribution) (f g : ℝ → ℝ → ℝ → ℝ) :
    average₃ A B C (fun a b c => f a b c + g a b c) = average₃ A B C f + average₃ A B C g := by
  unfold average₃
  simp only [average_add]

theorem average₃_mul (A B C : Distribution) (x : ℝ) (f : ℝ → ℝ → ℝ → ℝ) :
    average₃ A B C (fun a b c => x * f a b c) = x * average₃ A B C f := by
  unfold average₃
  simp only [average_mul]

theorem average₃_nonneg {A B C : Distribution} {f : ℝ → ℝ → ℝ → ℝ} (hA : ∀ p ∈ A, 0 ≤ p.2)
    (hB : ∀ p ∈ B, 0 ≤ p.2) (hC : ∀ p ∈ C, 0 ≤ p.2)
    (h : ∀ a ∈ A, ∀ b ∈ B, ∀ c ∈ C, 0 ≤ f a.1 b.1 c.1) : 0 ≤ average₃ A B C f :=
  average_nonneg hA fun a ha => average_nonneg hB fun b hb => average_nonneg hC fun c hc =>
    h a ha b hb c hc

/-- A function of the first variable only. -/
theorem average₃_first (A B C : Distribution) (f : ℝ → ℝ) :
    average₃ A B C (fun a _ _ => f a)
      = average A f * average B (fun _ => 1) * average C fun _ => 1 := by
  unfold average₃
  have : ∀ a, average B (fun _ => average C fun _ => f a)
      = average B (fun _ => 1) * average C (fun _ => 1) * f a := by
    intro a
    rw [average_const, average_const C]
    ring
  simp only [this]
  rw [average_mul]
  ring

theorem average₃_fixed_right (A B : Distribution) (f : ℝ → ℝ → ℝ → ℝ) :
    average₃ A B fixed f = average A fun a => average B fun b => f a b 0 := by
  simp [average₃, average, fixed]

theorem average₃_fixed_middle (A C : Distribution) (f : ℝ → ℝ → ℝ → ℝ) :
    average₃ A fixed C f = average A fun a => average C fun c => f a 0 c := by
  simp [average₃, average, fixed]

end Spec

namespace Unresolved

open Spec

theorem foldl_data (terms : List (ℝ × Data ℝ)) (r : Data ℝ) :
    terms.foldl (fun result t => result.add
      ⟨t.2.elastic / t.1, t.2.capture / t.1, t.2.fission / t.1, t.2.competition / t.1⟩) r
    = ⟨r.elastic + (terms.map fun t => t.2.elastic / t.1).sum,
        r.capture + (terms.map fun t => t.2.capture / t.1).sum,
        r.fission + (terms.map fun t => t.2.fission / t.1).sum,
        r.competition + (terms.map fun t => t.2.competition / t.1).sum⟩ := by
  induction terms generalizing r with
  | nil => simp
  | cons t ts ih =>
    rw [List.foldl_cons, ih]
    simp [Data.add, add_assoc]

theorem accumulate_eq {terms : List (ℝ × Data ℝ)} (h : ∀ t ∈ terms, t.1 ≠ 0) :
    accumulate terms = .ok ⟨(terms.map fun t => t.2.elastic / t.1).sum,
      (terms.map fun t => t.2.capture / t.1).sum, (terms.map fun t => t.2.fission / t.1).sum,
      (terms.map fun t => t.2.competition / t.1).sum⟩ := by
  unfold accumulate
  rw [if_neg (by rintro ⟨t, ht, h0⟩; exact h t ht h0), foldl_data]
  simp

theorem accumulate_ok {terms : List (ℝ × Data ℝ)} {r : Data ℝ} (h : accumulate terms = .ok r) :
    ∀ t ∈ terms, t.1 ≠ 0 := by
  intro t ht h0
  unfold accumulate at h
  rw [if_pos ⟨t, ht, h0⟩] at h
  cases h

theorem average_column (mu : ℕ) (f : ℝ → ℝ) :
    average (column mu) f = ((List.range 10).map fun i => (w i mu : ℝ) * f (q i mu)).sum := by
  unfold average column
  rw [List.map_map]
  rfl

theorem sum_flatMap {α β : Type} (l : List α) (f : α → List β) (g : β → ℝ) :
    ((l.flatMap f).map g).sum = (l.map fun a => ((f a).map g).sum).sum := by
  induction l with
  | nil => simp
  | cons a l ih => simp [ih]

theorem unsignedPred_of {n : ℕ} (h : 1 ≤ n) (h4 : n ≤ 4) : unsignedPred n = n - 1 := by
  unfold unsignedPred
  interval_cases n <;> rfl

theorem unsignedPred_zero : unsignedPred 0 = 2 ^ 32 - 1 := rfl

theorem mem_column {mu : ℕ} {p : ℝ × ℝ} :
    p ∈ column mu ↔ ∃ i, i < 10 ∧ p = ((q i mu : ℝ), (w i mu : ℝ)) := by
  unfold column
  simp only [List.mem_map, List.mem_range]
  constructor
  · rintro ⟨i, h, rfl⟩
    exact ⟨i, h, rfl⟩
  · rintro ⟨i, h, rfl⟩
    exact ⟨i, h, rfl⟩

theorem mul_sum_range (f : ℕ → ℝ) (c : ℝ) :
    c * ((List.range 10).map f).sum = ((List.range 10).map fun i => c * f i).sum := by
  rw [List.sum_map_mul_left]

theorem sum_range_congr {f g : ℕ → ℝ} (h : ∀ i, f i = g i) :
    ((List.range 10).map f).sum = ((List.range 10).map g).sum := by
  rw [funext h]

theorem column_index {n : ℕ} (h : n ≤ 4) : (if n ≠ 0 then unsignedPred n else 0) = n - 1 := by
  by_cases h0 : n = 0
  · simp [h0]
  · rw [if_pos h0, unsignedPred_of (by omega) h]

/-- Inside the tables the function returns the averages, unless a denominator vanishes. -/
theorem integrals_eq {widths : Data ℝ} {degrees : Data ℕ} (h : InTables widths degrees) :
    let A := column (degrees.elastic - 1)
    let B := fluctuations widths.fission degrees.fission
    let C := fluctuations widths.competition degrees.competition
    (Regular widths A B C →
      calculateFluctuationIntegrals widths degrees = .ok (averages widths A B C)) ∧
    (¬ Regular widths A B C →
      calculateFluctuationIntegrals widths degrees = .error .notFinite) := by
  obtain ⟨h1, h4, hf, hx⟩ := h
  intro A B C
  unfold calculateFluctuationIntegrals
  simp only [unsignedPred_of h1 h4]
  have hmu : ¬ 4 ≤ degrees.elastic - 1 := by omega
  by_cases h5 : widths.fission = 0 <;> by_cases h6 : widths.competition = 0
  · rw [if_pos (by simp [h5, h6]), if_neg hmu]
    have hB : B = fixed := if_pos h5
    have hC : C = fixed := if_pos h6
    rw [hB, hC]
    constructor
    · intro hr
      rw [accumulate_eq]
      · unfold averages
        simp only [average₃_fixed_right]
        simp only [average, fixed, A, column, List.map_map, List.map_cons, List.map_nil, List.sum_cons,
          List.sum_nil, totalWidth]
        congr 2 <;> (apply sum_range_congr; intro i; simp only [Function.comp]; ring)
      · intro t ht
        obtain ⟨i, hi, rfl⟩ := List.mem_map.mp ht
        have := hr _ (mem_column.mpr ⟨i, List.mem_range.mp hi, rfl⟩) (0, 1) (by simp [fixed]) (0, 1)
          (by simp [fixed])
        simpa [totalWidth] using this
    · intro hr
      unfold accumulate
      rw [if_pos]
      unfold Regular at hr
      push Not at hr
      obtain ⟨a, ha, b, hb, c, hc, h0⟩ := hr
      obtain ⟨i, hi, rfl⟩ := mem_column.mp ha
      simp only [fixed, List.mem_singleton] at hb hc
      subst hb hc
      refine ⟨_, List.mem_map.mpr ⟨i, List.mem_range.mpr hi, rfl⟩, ?_⟩
      simpa [totalWidth] using h0
  · -- no fission
    have hB : B = fixed := if_pos h5
    have hC : C = column (degrees.competition - 1) := if_neg h6
    have hl : ¬ 4 ≤ degrees.competition - 1 := by have := hx h6; omega
    rw [if_neg (by simp [h6]), if_neg (by simp [h5]), if_pos ⟨by simp [h5], h6⟩,
      column_index (hx h6), if_neg (by simp only [not_or]; exact ⟨hmu, hl⟩)]
    rw [hB, hC]
    constructor
    · intro hr
      rw [accumulate_eq]
      · unfold averages
        simp only [average₃_fixed_middle]
        simp only [A, average_column, totalWidth, sum_flatMap, List.map_map, mul_sum_range]
        congr 2 <;> (apply sum_range_congr; intro i; apply sum_range_congr; intro k
                     simp only [Function.comp]; ring)
      · intro t ht
        obtain ⟨i, hi, ht⟩ := List.mem_flatMap.mp ht
        obtain ⟨k, hk, rfl⟩ := List.mem_map.mp ht
        have := hr _ (mem_column.mpr ⟨i, List.mem_range.mp hi, rfl⟩) (0, 1) (by simp [fixed]) _
          (mem_column.mpr ⟨k, List.mem_range.mp hk, rfl⟩)
        simpa [totalWidth] using this
    · intro hr
      unfold accumulate
      rw [if_pos]
      unfold Regular at hr
      push Not at hr
      obtain ⟨a, ha, b, hb, c, hc, h0⟩ := hr
      obtain ⟨i, hi, rfl⟩ := mem_column.mp ha
      obtain ⟨k, hk, rfl⟩ := mem_column.mp hc
      simp only [fixed, List.mem_singleton] at hb
      subst hb
      refine ⟨_, List.mem_flatMap.mpr ⟨i, List.mem_range.mpr hi,
        List.mem_map.mpr ⟨k, List.mem_range.mpr hk, rfl⟩⟩, ?_⟩
      simpa [totalWidth] using h0
  · -- no competition
    have hB : B = column (degrees.fission - 1) := if_neg h5
    have hC : C = fixed := if_pos h6
    have hl : ¬ 4 ≤ degrees.fission - 1 := by have := hf h5; omega
    rw [if_neg (by simp [h5]), if_pos ⟨h5, by simp [h6]⟩,
      column_index (hf h5), if_neg (by simp only [not_or]; exact ⟨hmu, hl⟩)]
    rw [hB, hC]
    constructor
    · intro hr
      rw [accumulate_eq]
      · unfold averages
        simp only [average₃_fixed_right]
        simp only [A, average_column, totalWidth, sum_flatMap, List.map_map, mul_sum_range]
        congr 2 <;> (apply sum_range_congr; intro i; apply sum_range_congr; intro k
                     simp only [Function.comp]; ring)
      · intro t ht
        obtain ⟨i, hi, ht⟩ := List.mem_flatMap.mp ht
        obtain ⟨k, hk, rfl⟩ := List.mem_map.mp ht
        have := hr _ (mem_column.mpr ⟨i, List.mem_range.mp hi, rfl⟩) _
          (mem_column.mpr ⟨k, List.mem_range.mp hk, rfl⟩) (0, 1) (by simp [fixed])
        simpa [totalWidth] using this
    · intro hr
      unfold accumulate
      rw [if_pos]
      unfold Regular at hr
      push Not at hr
      obtain ⟨a, ha, b, hb, c, hc, h0⟩ := hr
      obtain ⟨i, hi, rfl⟩ := mem_column.mp ha
      obtain ⟨k, hk, rfl⟩ := mem_column.mp hb
      simp only [fixed, List.mem_singleton] at hc
      subst hc
      refine ⟨_, List.mem_flatMap.mpr ⟨i, List.mem_range.mpr hi,
        List.mem_map.mpr ⟨k, List.mem_range.mpr hk, rfl⟩⟩, ?_⟩
      simpa [totalWidth] using h0
  · have hB : B = column (degrees.fission - 1) := if_neg h5
    have hC : C = column (degrees.competition - 1) := if_neg h6
    have hl : ¬ 4 ≤ degrees.fission - 1 := by have := hf h5; omega
    have hl' : ¬ 4 ≤ degrees.competition - 1 := by have := hx h6; omega
    rw [if_neg (by simp [h5]), if_neg (by simp [h6]), if_neg (by simp [h5]),
      column_index (hf h5), column_index (hx h6),
      if_neg (by simp only [not_or]; exact ⟨hmu, hl, hl'⟩)]
    rw [hB, hC]
    constructor
    · intro hr
      rw [accumulate_eq]
      · unfold averages average₃
        simp only [A, average_column, totalWidth, sum_flatMap, List.map_map, mul_sum_range]
        congr 2 <;> (apply sum_range_congr; intro i; apply sum_range_congr; intro j
                     apply sum_range_congr; intro k; simp only [Function.comp]; ring)
      · intro t ht
        obtain ⟨i, hi, ht⟩ := List.mem_flatMap.mp ht
        obtain ⟨j, hj, ht⟩ := List.mem_flatMap.mp ht
        obtain ⟨k, hk, rfl⟩ := List.mem_map.mp ht
        have := hr _ (mem_column.mpr ⟨i, List.mem_range.mp hi, rfl⟩) _
          (mem_column.mpr ⟨j, List.mem_range.mp hj, rfl⟩) _
          (mem_column.mpr ⟨k, List.mem_range.mp hk, rfl⟩)
        simpa [totalWidth] using this
    · intro hr
      unfold accumulate
      rw [if_pos]
      unfold Regular at hr
      push Not at hr
      obtain ⟨a, ha, b, hb, c, hc, h0⟩ := hr
      obtain ⟨i, hi, rfl⟩ := mem_column.mp ha
      obtain ⟨j, hj, rfl⟩ := mem_column.mp hb
      obtain ⟨k, hk, rfl⟩ := mem_column.mp hc
      refine ⟨_, List.mem_flatMap.mpr ⟨i, List.mem_range.mpr hi, List.mem_flatMap.mpr
        ⟨j, List.mem_range.mpr hj, List.mem_map.mpr ⟨k, List.mem_range.mpr hk, rfl⟩⟩⟩, ?_⟩
      simpa [totalWidth] using h0

/-- Outside the tables the behaviour is undefined. -/
theorem integrals_undefined {widths : Data ℝ} {degrees : Data ℕ} (h32 : degrees.elastic < 2 ^ 32)
    (hf32 : degrees.fission < 2 ^ 32) (hx32 : degrees.competition < 2 ^ 32)
    (h : ¬ InTables widths degrees) :
    calculateFluctuationIntegrals widths degrees = .error .undefined := by
  have key : ∀ n, n < 2 ^ 32 → n ≠ 0 → unsignedPred n = n - 1 := by
    intro n hn h0
    unfold unsignedPred
    omega
  unfold calculateFluctuationIntegrals
  by_cases hmu : 4 ≤ unsignedPred degrees.elastic
  · simp only [hmu, true_or, if_true]
    simp
  · have h1 : 1 ≤ degrees.elastic ∧ degrees.elastic ≤ 4 := by
      by_cases h0 : degrees.elastic = 0
      · rw [h0, unsignedPred_zero] at hmu
        omega
      · rw [key _ h32 h0] at hmu
        omega
    have idx : ∀ n, n < 2 ^ 32 → 4 < n → 4 ≤ (if n ≠ 0 then unsignedPred n else 0) := by
      intro n hn h4
      rw [if_pos (by omega), key n hn (by omega)]
      omega
    unfold InTables at h
    simp only [h1.1, h1.2, true_and, not_and_or, Classical.not_imp, not_le] at h
    rcases h with ⟨h5, h6⟩ | ⟨h5, h6⟩
    · have := idx _ hf32 h6
      by_cases h7 : widths.competition = 0
      · rw [if_neg (by simp [h5]), if_pos ⟨h5, by simp [h7]⟩, if_pos (.inr this)]
      · rw [if_neg (by simp [h5]), if_neg (by simp [h7]), if_neg (by simp [h5]),
          if_pos (.inr (.inl this))]
    · have := idx _ hx32 h6
      by_cases h7 : widths.fission = 0
      · rw [if_neg (by simp [h5]), if_neg (by simp [h5]), if_pos ⟨by simp [h7], h5⟩,
          if_pos (.inr this)]
      · rw [if_neg (by simp [h5]), if_neg (by simp [h5]), if_neg (by simp [h7]),
          if_pos (.inr (.inr this))]

theorem q_pos : ∀ i < 10, ∀ mu < 4, 0 < q i mu := by decide +kernel

theorem w_nonneg : ∀ i < 10, ∀ mu < 4, 0 ≤ w i mu := by decide +kernel

theorem moment_zero : ∀ mu < 4, |((List.range 10).map fun i => w i mu).sum - 1| ≤ 1 / 4000 := by
  decide +kernel

theorem moment_one :
    ∀ mu < 4, |((List.range 10).map fun i => w i mu * q i mu).sum - 1| ≤ 3 / 2500 := by
  decide +kernel

theorem moment_two : ∀ mu < 4, |((List.range 10).map fun i => w i mu * (q i mu * q i mu)).sum
    - (1 + 2 / ((mu : ℚ) + 1))| ≤ 3 / 200 := by
  decide +kernel

theorem average_column_cast (mu : ℕ) (f : ℝ → ℝ) (g : ℚ → ℚ) (h : ∀ x : ℚ, f x = (g x : ℚ)) :
    average (column mu) f = (((List.range 10).map fun i => w i mu * g (q i mu)).sum : ℚ) := by
  rw [average_column, Rat.cast_list_sum, List.map_map]
  congr 1
  refine List.map_congr_left fun i _ => ?_
  simp [h]

theorem column_pos {mu : ℕ} (h : mu < 4) {p : ℝ × ℝ} (hp : p ∈ column mu) : 0 < p.1 ∧ 0 ≤ p.2 := by
  obtain ⟨i, hi, rfl⟩ := mem_column.mp hp
  refine ⟨show (0 : ℝ) < q i mu by exact_mod_cast q_pos i hi mu h, ?_⟩
  show (0 : ℝ) ≤ w i mu
  exact_mod_cast w_nonneg i hi mu h

theorem fluctuations_nonneg {width : ℝ} {n : ℕ} (h : width ≠ 0 → n ≤ 4) {p : ℝ × ℝ}
    (hp : p ∈ fluctuations width n) : 0 ≤ p.1 ∧ 0 ≤ p.2 := by
  unfold fluctuations at hp
  by_cases h0 : width = 0
  · rw [if_pos h0] at hp
    simp only [fixed, List.mem_singleton] at hp
    subst hp
    simp
  · rw [if_neg h0] at hp
    have := column_pos (by have := h h0; omega) hp
    exact ⟨this.1.le, this.2⟩

/-- What a successful evaluation found and returned. -/
theorem evaluate_ok {K : Constants} {lib : CoulombLibrary} {E : ℝ} {g g' : SpinGroup}
    {m m' : LegacyMap} (h : g.evaluate K lib E m = .ok (m', g')) :
    ∃ P φ R t r, g.channel.penetrability K lib E = .ok P ∧ g.channel.phaseShift K lib E = .ok φ ∧
      g.channel.radii.penetrability E = .ok R ∧ g.table.call E = .ok t ∧ g' = g ∧
      g.channel.waveNumber K E ≠ 0 ∧ R ≠ 0 ∧ 0 ≤ E ∧ t.spacing ≠ 0 ∧
      calculateFluctuationIntegrals ⟨t.elastic * Real.sqrt E * (g.table.degrees.elastic * P
        / (g.channel.waveNumber K E * R)), t.capture, t.fission, t.competition⟩ g.table.degrees = .ok r ∧
      ∀ id, (m' id).getD 0 = (m id).getD 0
        + (if id = legacyID g.channel .elastic then 2 * Real.pi ^ 2 / g.channel.waveNumber K E ^ 2
            * g.channel.spinFactor / t.spacing * (t.elastic * Real.sqrt E
              * (g.table.degrees.elastic * P / (g.channel.waveNumber K E * R)))
            * (t.elastic * Real.sqrt E * (g.table.degrees.elastic * P
              / (g.channel.waveNumber K E * R)) * r.elastic - 2 * Real.sin φ ^ 2) else 0)
        + (if id = legacyID g.channel .capture then 2 * Real.pi ^ 2 / g.channel.waveNumber K E ^ 2
            * g.channel.spinFactor / t.spacing * (t.elastic * Real.sqrt E
              * (g.table.degrees.elastic * P / (g.channel.waveNumber K E * R)))
            * (t.capture * r.capture) else 0)
        + (if id = legacyID g.channel .fission then 2 * Real.pi ^ 2 / g.channel.waveNumber K E ^ 2
            * g.channel.spinFactor / t.spacing * (t.elastic * Real.sqrt E
              * (g.table.degrees.elastic * P / (g.channel.waveNumber K E * R)))
            * (t.fission * r.fission) else 0) := by
  unfold SpinGroup.evaluate at h
  simp only [bind, Except.bind] at h
  split at h
  · cases h
  rename_i P hP
  split at h
  · cases h
  rename_i φ hφ
  split at h
  · cases h
  rename_i R hR
  split at h
  · cases h
  rename_i t ht
  split at h
  · cases h
  rename_i hfin
  push Not at hfin
  obtain ⟨hk, hρ, hE, hD⟩ := hfin
  split at h
  · cases h
  rename_i r hr
  simp only [pure, Except.pure, Except.ok.injEq, Prod.mk.injEq] at h
  obtain ⟨rfl, rfl⟩ := h
  refine ⟨P, φ, R, t, r, hP, hφ, hR, ht, rfl, hk, (mul_ne_zero_iff.mp hρ).2, hE, hD, hr, fun id => ?_⟩
  by_cases hf : t.fission = 0
  · rw [if_neg (by simpa using hf)]
    simp only [LegacyMap.add_getD, hf]
    split_ifs <;> ring
  · rw [if_pos hf]
    simp only [LegacyMap.add_getD]
    split_ifs <;> ring

end Unresolved

end Verif
