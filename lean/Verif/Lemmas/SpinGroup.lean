import Verif.Lemmas.RMatrix
import Verif.Spec.RMatrix

/-!
# Closed forms for the spin group model
-/

namespace Verif

open Complex Matrix

theorem collect_ok {α : Type*} : ∀ {n : ℕ} {f : Fin n → Outcome α} {v : Fin n → α},
    collect f = .ok v ↔ ∀ i, f i = .ok (v i)
  | 0, f, v => by
    simp only [collect, IsEmpty.forall_iff, iff_true]
    exact congrArg _ (Subsingleton.elim _ _)
  | n + 1, f, v => by
    rw [Fin.forall_fin_succ]
    simp only [collect]
    cases h0 : f 0 with
    | error e => simp [bind, Except.bind]
    | ok a =>
      cases ht : collect fun i => f i.succ with
      | error e =>
        have : ¬ ∀ i : Fin n, f i.succ = .ok (v i.succ) := by
          intro h
          rw [← collect_ok (v := fun i => v i.succ)] at h
          rw [ht] at h
          cases h
        simp [bind, Except.bind, this]
      | ok t =>
        have := (collect_ok (f := fun i => f i.succ) (v := t)).mp ht
        simp only [bind, Except.bind, pure, Except.pure, Except.ok.injEq]
        constructor
        · intro h
          subst h
          simp [this]
        · rintro ⟨h1, h2⟩
          funext i
          refine Fin.cases ?_ (fun j => ?_) i
          · simp [h1]
          · have := (this j).symm.trans (h2 j)
            simpa using this

theorem collect_error {α : Type*} {n : ℕ} {f : Fin n → Outcome α}
    (h : ∀ i, ∃ v, f i = .ok v) : ∃ v, collect f = .ok v := by
  choose v hv using h
  exact ⟨v, collect_ok.mpr hv⟩

theorem denominator_eq (r : Resonance) (E : ℝ) :
    r.denominator E = (r.energy : ℂ) - E - I * (r.eliminated : ℂ) ^ 2 := by
  apply Complex.ext <;> simp [Resonance.denominator, pow_two]

section Cache

variable {n : ℕ}

theorem foldl_R (rs : List Resonance) (E : ℝ) (c : MatrixCache n) :
    rs.foldl (fun c r => { c with R := c.R + r.rmatrix E n }) c
      = { c with R := c.R + (rs.map fun r => r.rmatrix E n).sum } := by
  induction rs generalizing c with
  | nil => simp
  | cons r rs ih => simp [ih, add_assoc]

theorem foldl_L (f : Fin n → ℂ) (is : List (Fin n)) (c : MatrixCache n) :
    is.foldl (fun c i => { c with L := Function.update c.L i (f i) }) c
      = { c with L := fun i => if i ∈ is then f i else c.L i } := by
  induction is generalizing c with
  | nil => simp
  | cons i is ih =>
    simp only [List.foldl_cons, ih, List.mem_cons]
    congr 1
    funext j
    by_cases hj : j ∈ is
    · simp [hj]
    · by_cases hji : j = i
      · subst hji; simp [hj]
      · simp [hj, hji]

open Classical in
theorem foldl_zero (closed : Fin n → Prop) (is : List (Fin n)) (c : MatrixCache n) :
    is.foldl (fun c i => if closed i then { c with R := zeroRowCol c.R i } else c) c
      = { c with R := Matrix.of fun i j =>
            if (i ∈ is ∧ closed i) ∨ (j ∈ is ∧ closed j) then 0 else c.R i j } := by
  induction is generalizing c with
  | nil =>
    simp
    rfl
  | cons a is ih =>
    rw [List.foldl_cons, ih]
    by_cases ha : closed a
    · simp only [if_pos ha, zeroRowCol]
      congr 1
      ext i j
      simp only [Matrix.of_apply, List.mem_cons]
      by_cases h1 : i = a <;> by_cases h2 : j = a <;> simp [h1, h2, ha]
    · simp only [if_neg ha]
      congr 1
      ext i j
      simp only [Matrix.of_apply, List.mem_cons]
      by_cases h1 : i = a <;> by_cases h2 : j = a <;> simp [h1, h2, ha]

end Cache

section Closed

variable (channels : List Channel) (resonances : List Resonance) (E : ℝ)

theorem sum_rmatrix_apply {n : ℕ} (rs : List Resonance) (E : ℝ) (i j : Fin n) :
    (rs.map fun r => r.rmatrix E n).sum i j
      = (rs.map fun r => ((r.width i * r.width j : ℝ) : ℂ) * (1 / r.denominator E)).sum := by
  induction rs with
  | nil => rfl
  | cons r rs ih =>
    simp only [List.map_cons, List.sum_cons, Matrix.add_apply, ih]
    rfl

open Classical in
theorem rMatrix_eq :
    (Matrix.of fun i j => if (i ∈ List.finRange channels.length ∧ channels[i].belowThreshold E) ∨
        (j ∈ List.finRange channels.length ∧ channels[j].belowThreshold E) then (0 : ℂ)
      else (0 + (resonances.map fun r => r.rmatrix E channels.length).sum :
        Matrix (Fin channels.length) (Fin channels.length) ℂ) i j)
      = Spec.rMatrix channels resonances E := by
  ext i j
  simp only [Matrix.of_apply, Spec.rMatrix, List.mem_finRange, true_and, zero_add,
    sum_rmatrix_apply, Spec.amplitude, denominator_eq]
  by_cases h1 : channels[i].belowThreshold E
  · simp only [h1, true_or, if_true]
    symm
    apply List.sum_eq_zero
    simp
  · by_cases h2 : channels[j].belowThreshold E
    · simp only [h2, or_true, if_true]
      symm
      apply List.sum_eq_zero
      simp
    · simp only [h1, h2, or_self, if_false]
      congr 1
      apply List.map_congr_left
      intro r _
      push_cast
      ring

/-- Result of `lmatrix` in closed form. -/
theorem lmatrix_ok {option : BoundaryOption} {K : Constants} {lib : CoulombLibrary}
    {channels : List Channel} {E : ℝ} {P : Fin channels.length → ℝ}
    {cache cache' : MatrixCache channels.length} :
    lmatrix option K lib channels E P cache = .ok cache' ↔
      ∃ S : Fin channels.length → ℝ,
        (option = .constant → ∀ i : Fin channels.length, channels[i].shiftFactor K lib E = .ok (S i)) ∧
        cache' = { cache with L := Spec.logDerivative option channels P S } := by
  cases option with
  | shiftFactor =>
    have key : ∀ S, (fun i => (⟨0, P i⟩ : ℂ))
        = Spec.logDerivative .shiftFactor channels P S := by
      intro S
      funext i
      apply Complex.ext <;> simp [Spec.logDerivative]
    simp only [lmatrix, foldl_L, List.mem_finRange, if_true, pure, Except.pure,
      Except.ok.injEq, reduceCtorEq, false_implies, true_and, ← key, exists_const]
    exact eq_comm
  | constant =>
    simp only [lmatrix, foldl_L, List.mem_finRange, if_true, bind, Except.bind, pure, Except.pure,
      true_implies]
    have key : ∀ S : Fin channels.length → ℝ,
        (fun i => (⟨S i - channels[i].boundary, P i⟩ : ℂ))
          = Spec.logDerivative .constant channels P S := by
      intro S
      funext i
      apply Complex.ext <;> simp [Spec.logDerivative]
    cases hS : collect fun i => channels[i].shiftFactor K lib E with
    | error e =>
      simp only [reduceCtorEq, false_iff, not_exists, not_and]
      intro S h
      rw [← collect_ok] at h
      rw [hS] at h
      cases h
    | ok S =>
      simp only [Except.ok.injEq]
      have hS' := collect_ok.mp hS
      constructor
      · intro h
        refine ⟨S, hS', ?_⟩
        rw [← h, ← key]
      · rintro ⟨S', h1, h2⟩
        have : S = S' := by
          funext i
          have := (hS' i).symm.trans (h1 i)
          simpa using this
        subst this
        rw [h2, ← key]

/-- Result of `rlmatrix` in closed form. -/
theorem rlmatrix_ok {option : BoundaryOption} {K : Constants} {lib : CoulombLibrary}
    {channels : List Channel} {resonances : List Resonance} {E : ℝ} {P : Fin channels.length → ℝ}
    {cache cache' : MatrixCache channels.length} :
    rlmatrix option K lib channels resonances E P cache = .ok cache' ↔
      (∀ r ∈ resonances, r.widths.length = channels.length) ∧
      (∀ r ∈ resonances, r.denominator E ≠ 0) ∧
      ∃ S : Fin channels.length → ℝ,
        (option = .constant → ∀ i : Fin channels.length, channels[i].shiftFactor K lib E = .ok (S i)) ∧
        (Spec.levelDenominator option channels resonances E P S).det ≠ 0 ∧
        cache' = ⟨Spec.logDerivative option channels P S, Spec.rMatrix channels resonances E,
          (Spec.levelDenominator option channels resonances E P S)⁻¹ *
            Spec.rMatrix channels resonances E⟩ := by
  classical
  unfold rlmatrix
  by_cases hw : ∀ r ∈ resonances, r.widths.length = channels.length
  · rw [if_neg (not_not.mpr hw)]
    simp only [foldl_R]
    have hz := foldl_zero (fun i : Fin channels.length => channels[i].belowThreshold E)
      (List.finRange channels.length)
      ({ L := cache.L, R := 0 + (resonances.map fun r => r.rmatrix E channels.length).sum,
         RL := cache.RL } : MatrixCache channels.length)
    rw [rMatrix_eq] at hz
    rw [hz]
    cases hl : lmatrix option K lib channels E P
        ⟨cache.L, Spec.rMatrix channels resonances E, cache.RL⟩ with
    | error e =>
      simp only [reduceCtorEq, false_iff, not_and, not_exists]
      intro _ _ S hS
      have := (lmatrix_ok (lib := lib) (K := K) (P := P)
        (cache := ⟨cache.L, Spec.rMatrix channels resonances E, cache.RL⟩)).mpr ⟨S, hS, rfl⟩
      rw [hl] at this
      cases this
    | ok c =>
      obtain ⟨S, hS, rfl⟩ := lmatrix_ok.mp hl
      by_cases hp : ∃ r ∈ resonances, r.denominator E = 0
      · simp only [hp, if_true, reduceCtorEq, false_iff]
        rintro ⟨_, h, _⟩
        obtain ⟨r, hr, h0⟩ := hp
        exact h r hr h0
      · simp only [hp, if_false]
        have hp' : ∀ r ∈ resonances, r.denominator E ≠ 0 := fun r hr h0 => hp ⟨r, hr, h0⟩
        have hL : ∀ S' : Fin channels.length → ℝ,
            (option = .constant → ∀ i : Fin channels.length, channels[i].shiftFactor K lib E = .ok (S' i)) →
            Spec.logDerivative option channels P S' = Spec.logDerivative option channels P S := by
          intro S' hS'
          cases option with
          | shiftFactor => rfl
          | constant =>
            have : S' = S := by
              funext i
              have := (hS' rfl i).symm.trans (hS rfl i)
              simpa using this
            rw [this]
        by_cases hd : (1 - Spec.rMatrix channels resonances E *
            Matrix.diagonal (Spec.logDerivative option channels P S)).det = (0 : ℂ)
        · simp only [hd, if_true, reduceCtorEq, false_iff]
          rintro ⟨_, _, S', hS', hd', _⟩
          apply hd'
          rw [Spec.levelDenominator, hL S' hS']
          exact hd
        · simp only [hd, if_false, Except.ok.injEq]
          constructor
          · intro h
            exact ⟨hw, hp', S, hS, hd, h.symm⟩
          · rintro ⟨_, _, S', hS', _, h⟩
            rw [h, Spec.levelDenominator, hL S' hS']
  · rw [if_pos hw]
    simp only [reduceCtorEq, false_iff]
    rintro ⟨h, _⟩
    exact hw h

/-- The result does not depend on what the cache held before. -/
theorem rlmatrix_cache {option : BoundaryOption} {K : Constants} {lib : CoulombLibrary}
    {channels : List Channel} {resonances : List Resonance} {E : ℝ} {P : Fin channels.length → ℝ}
    (cache₁ cache₂ : MatrixCache channels.length) :
    rlmatrix option K lib channels resonances E P cache₁
      = rlmatrix option K lib channels resonances E P cache₂ := by
  have hl : ∀ R, lmatrix option K lib channels E P ⟨cache₁.L, R, cache₁.RL⟩
        = (lmatrix option K lib channels E P ⟨cache₂.L, R, cache₂.RL⟩).map
            fun c => { c with RL := cache₁.RL } := by
    intro R
    cases option with
    | shiftFactor => simp [lmatrix, foldl_L, pure, Except.pure, Except.map]
    | constant =>
      simp only [lmatrix, foldl_L, bind, Except.bind, pure, Except.pure]
      cases collect fun i => channels[i].shiftFactor K lib E <;>
        simp [Except.map]
  unfold rlmatrix
  simp only [foldl_R]
  rw [foldl_zero, foldl_zero]
  simp only
  rw [hl]
  cases lmatrix option K lib channels E P _ <;> rfl

/-- The outcome depends on the resonances only through the number of widths, the poles and the
R-matrix. -/
theorem rlmatrix_congr {option : BoundaryOption} {K : Constants} {lib : CoulombLibrary}
    {channels : List Channel} {rs rs' : List Resonance} {E : ℝ} {P : Fin channels.length → ℝ}
    {cache : MatrixCache channels.length}
    (h1 : (∀ r ∈ rs, r.widths.length = channels.length) ↔
      ∀ r ∈ rs', r.widths.length = channels.length)
    (h2 : (∃ r ∈ rs, r.denominator E = 0) ↔ ∃ r ∈ rs', r.denominator E = 0)
    (h3 : Spec.rMatrix channels rs E = Spec.rMatrix channels rs' E) :
    rlmatrix option K lib channels rs E P cache = rlmatrix option K lib channels rs' E P cache := by
  classical
  unfold rlmatrix
  by_cases hw : ∀ r ∈ rs, r.widths.length = channels.length
  · rw [if_neg (not_not.mpr hw), if_neg (not_not.mpr (h1.mp hw))]
    simp only [foldl_R]
    have hz : ∀ rs, _ := fun rs => foldl_zero
      (fun i : Fin channels.length => channels[i].belowThreshold E)
      (List.finRange channels.length)
      ({ L := cache.L, R := 0 + (List.map (fun r : Resonance => r.rmatrix E channels.length) rs).sum,
         RL := cache.RL } : MatrixCache channels.length)
    have hz1 := hz rs
    have hz2 := hz rs'
    rw [rMatrix_eq] at hz1 hz2
    rw [hz1, hz2, h3]
    simp only [h2]
  · rw [if_pos hw, if_pos (fun h => hw (h1.mpr h))]

end Closed

theorem prepare_ok {option : BoundaryOption} {K : Constants} {lib : CoulombLibrary}
    {g : SpinGroup} {E : ℝ} {cache cache' : MatrixCache g.channels.length}
    {p : Prepared g.channels.length} :
    g.prepare option K lib E cache = .ok (p, cache') ↔
      (∀ i : Fin g.channels.length, g.channels[i].penetrability K lib E = .ok (p.P i)) ∧
      (∀ i : Fin g.channels.length, g.channels[i].coulombPhaseShift K E = .ok (p.w i)) ∧
      (∀ i : Fin g.channels.length, g.channels[i].phaseShift K lib E = .ok (p.phi i)) ∧
      (∀ i, 0 ≤ p.P i) ∧
      rlmatrix option K lib g.channels g.table.resonances E p.P cache = .ok cache' ∧
      p.RL = cache'.RL ∧
      ∃ first rest, g.incident = first :: rest ∧ g.channels[first].waveNumber K E ≠ 0 ∧
        p.factor = Real.pi / (g.channels[first].waveNumber K E * g.channels[first].waveNumber K E)
          * g.channels[first].spinFactor := by
  obtain ⟨P, w, phi, RL, factor⟩ := p
  rw [← collect_ok (f := fun i => g.channels[i].penetrability K lib E) (v := P),
    ← collect_ok (f := fun i => g.channels[i].coulombPhaseShift K E) (v := w),
    ← collect_ok (f := fun i => g.channels[i].phaseShift K lib E) (v := phi)]
  unfold SpinGroup.prepare
  simp only [bind, Except.bind]
  cases hP : collect fun i => g.channels[i].penetrability K lib E with
  | error e => simp
  | ok P' =>
    cases hw : collect fun i => g.channels[i].coulombPhaseShift K E with
    | error e => simp
    | ok w' =>
      cases hphi : collect fun i => g.channels[i].phaseShift K lib E with
      | error e => simp
      | ok phi' =>
        simp only [Except.ok.injEq]
        by_cases hneg : ∃ i, P' i < 0
        · simp only [hneg, if_true, reduceCtorEq, false_iff]
          rintro ⟨rfl, _, _, h, _⟩
          obtain ⟨i, hi⟩ := hneg
          exact absurd (h i) (not_le.mpr hi)
        · simp only [hneg, if_false]
          have hnn : ∀ i, 0 ≤ P' i := fun i => not_lt.mp fun h => hneg ⟨i, h⟩
          cases hrl : rlmatrix option K lib g.channels g.table.resonances E P' cache with
          | error e =>
            simp only [reduceCtorEq, false_iff]
            rintro ⟨rfl, _, _, _, h, _⟩
            rw [hrl] at h
            cases h
          | ok c =>
            cases hi : g.incident with
            | nil => simp
            | cons first rest =>
              by_cases hk : g.channels[first].waveNumber K E = 0
              · simp only [hk, if_true, reduceCtorEq, false_iff]
                rintro ⟨_, _, _, _, _, _, f, r, hfr, hne, _⟩
                simp only [List.cons.injEq] at hfr
                rw [← hfr.1] at hne
                exact hne hk
              · simp only [hk, if_false, pure, Except.pure, Except.ok.injEq, Prod.mk.injEq,
                  Prepared.mk.injEq, List.cons.injEq]
                constructor
                · rintro ⟨⟨rfl, rfl, rfl, rfl, rfl⟩, rfl⟩
                  exact ⟨rfl, rfl, rfl, hnn, hrl, rfl, first, rest, ⟨rfl, rfl⟩, hk, rfl⟩
                · rintro ⟨rfl, rfl, rfl, _, h, rfl, f, r, ⟨rfl, rfl⟩, _, rfl⟩
                  rw [hrl] at h
                  cases h
                  simp

theorem prepare_cache {option : BoundaryOption} {K : Constants} {lib : CoulombLibrary}
    {g : SpinGroup} {E : ℝ} (cache₁ cache₂ : MatrixCache g.channels.length) :
    g.prepare option K lib E cache₁ = g.prepare option K lib E cache₂ := by
  unfold SpinGroup.prepare
  simp only [rlmatrix_cache cache₁ cache₂]

end Verif
