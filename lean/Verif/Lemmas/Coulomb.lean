import Verif.Model.Coulomb
import Verif.Spec.Coulomb
import Mathlib.Tactic.FieldSimp
import Mathlib.Tactic.Linarith
import Mathlib.Tactic.LinearCombination

/-!
# Lemmas about the Coulomb wave functions
-/

namespace Verif

open Spec

/-- `√(l² + η²)`. -/
noncomputable def cs (η : ℝ) (l : ℕ) : ℝ := Real.sqrt ((l : ℝ) ^ 2 + η ^ 2)

theorem cs_pos (η : ℝ) {l : ℕ} (h : 1 ≤ l) : 0 < cs η l := by
  have : (0 : ℝ) < l := by exact_mod_cast h
  exact Real.sqrt_pos.mpr (by positivity)

theorem cs_succ (η : ℝ) (l : ℕ) : cs η (l + 1) = Real.sqrt ((l + 1 : ℝ) ^ 2 + η ^ 2) := by
  rw [cs]; push_cast; rfl

theorem cs_one (η : ℝ) : cs η 1 = Real.sqrt (1 + η * η) := by
  rw [cs]; congr 1; push_cast; ring

theorem recurrence_iff {η ρ : ℝ} {u : ℕ → ℝ} {l : ℕ} :
    CoulombRecurrence η ρ u l ↔ l * cs η (l + 1) * u (l + 1)
      = (2 * l + 1) * (η + l * (l + 1) / ρ) * u l - (l + 1) * cs η l * u (l - 1) := by
  rw [CoulombRecurrence, ← cs_succ]; rfl

theorem omGfunction_eq {η ρ : ℝ} {u : ℕ → ℝ} {l : ℕ} (h : 1 ≤ l)
    (hu : u (l + 1) = omGfunction l η ρ (u (l - 1)) (u l)) : CoulombRecurrence η ρ u l := by
  rw [recurrence_iff, hu, omGfunction]
  have hl : (l : ℝ) ≠ 0 := by positivity
  have e1 : Real.sqrt ((l : ℝ) * l + η * η) = cs η l := by rw [cs]; congr 1; ring
  have e2 : Real.sqrt (((l + 1 : ℕ) : ℝ) * (l + 1 : ℕ) + η * η) = cs η (l + 1) := by
    rw [cs]; congr 1; ring
  simp only [e1, e2]
  have := (cs_pos η (l := l + 1) (by omega)).ne'
  field_simp
  push_cast
  ring

theorem omFfunction_eq {η ρ : ℝ} {u : ℕ → ℝ} {l : ℕ} (h : 1 ≤ l)
    (hu : u (l - 1) = omFfunction l η ρ (u (l + 1)) (u l)) : CoulombRecurrence η ρ u l := by
  rw [recurrence_iff, hu, omFfunction]
  have hl : (l : ℝ) ≠ 0 := by positivity
  have e1 : Real.sqrt ((l : ℝ) * l + η * η) = cs η l := by rw [cs]; congr 1; ring
  have e2 : Real.sqrt (((l + 1 : ℕ) : ℝ) * (l + 1 : ℕ) + η * η) = cs η (l + 1) := by
    rw [cs]; congr 1; ring
  simp only [e1, e2]
  have := (cs_pos η h).ne'
  field_simp
  push_cast
  ring

theorem omDfunction_eq (η ρ : ℝ) (u : ℕ → ℝ) (l : ℕ) :
    omDfunction l η ρ (u l) (u (l + 1)) = coulombDerivative η ρ u l := by
  rw [omDfunction, coulombDerivative]
  push_cast
  rw [show ((l : ℝ) + 1) * (l + 1) + η * η = (l + 1) ^ 2 + η ^ 2 by ring]
  ring

/-- The Casoratian of two solutions. -/
theorem casoratian {η ρ : ℝ} {F G : ℕ → ℝ} {N : ℕ}
    (hF : ∀ l, 1 ≤ l → l ≤ N → CoulombRecurrence η ρ F l)
    (hG : ∀ l, 1 ≤ l → l ≤ N → CoulombRecurrence η ρ G l) :
    ∀ l, l ≤ N → (F l * G (l + 1) - G l * F (l + 1)) * cs η (l + 1)
      = (l + 1) * ((F 0 * G 1 - G 0 * F 1) * cs η 1)
  | 0, _ => by simp
  | l + 1, h => by
    have ih := casoratian hF hG l (by omega)
    have f := recurrence_iff.mp (hF (l + 1) (by omega) h)
    have g := recurrence_iff.mp (hG (l + 1) (by omega) h)
    simp only [Nat.add_sub_cancel] at f g
    have hl : ((l + 1 : ℕ) : ℝ) ≠ 0 := by positivity
    apply mul_left_cancel₀ hl
    push_cast at *
    linear_combination F (l + 1) * g - G (l + 1) * f + (l + 1 + 1) * ih

theorem wronskian_eq {η ρ : ℝ} (F G : ℕ → ℝ) (l : ℕ) :
    G l * coulombDerivative η ρ F l - coulombDerivative η ρ G l * F l
      = (F l * G (l + 1) - G l * F (l + 1)) * cs η (l + 1) / (l + 1) := by
  rw [coulombDerivative, coulombDerivative, ← cs_succ]
  ring

/-! ## Array operations -/

theorem write_ok (a : Cells) {i : ℕ} (h : i < 60) (z : ℂ) :
    a.write i z = .ok (Function.update a i z) := by rw [Cells.write, if_pos h]

theorem read_ok (a : Cells) {i : ℕ} (h : i < 60) : a.read i = .ok (a i) := by
  rw [Cells.read, if_pos h]

theorem writeImag_ok (a : Cells) {i : ℕ} (h : i < 60) (x : ℝ) :
    a.writeImag i x = .ok (Function.update a i ⟨(a i).re, x⟩) := write_ok a h _

/-! ## Upwards -/

/-- The sequence that the upward loop computes. -/
noncomputable def upSeq (η ρ g0 g1 : ℝ) : ℕ → ℝ
  | 0 => g0
  | 1 => g1
  | l + 2 => omGfunction (l + 1) η ρ (upSeq η ρ g0 g1 l) (upSeq η ρ g0 g1 (l + 1))

theorem upSeq_recurrence (η ρ g0 g1 : ℝ) {l : ℕ} (h : 1 ≤ l) :
    CoulombRecurrence η ρ (upSeq η ρ g0 g1) l := by
  obtain ⟨m, rfl⟩ : ∃ m, l = m + 1 := ⟨l - 1, by omega⟩
  exact omGfunction_eq h rfl

theorem upwardLoop_ok (η ρ a g0 g1 : ℝ) (lmax : ℕ) :
    ∀ (k l : ℕ) (w : Cells), l + k = 59 → 1 ≤ l →
      (∀ i ≤ l, w i = ⟨upSeq η ρ g0 g1 i, 0⟩) →
      ∃ w' l', upwardLoop η ρ a lmax k l (upSeq η ρ g0 g1 (l - 1)) (upSeq η ρ g0 g1 l) w
          = .ok (w', l') ∧
        ((l' = 59 ∧ ∀ i ≤ 59, w' i = ⟨upSeq η ρ g0 g1 i, 0⟩) ∨
          (1 ≤ l' ∧ l' ≤ 58 ∧ lmax ≤ l' ∧ (∀ i ≤ l' + 1, w' i = ⟨upSeq η ρ g0 g1 i, 0⟩) ∧
            upSeq η ρ g0 g1 (l' + 1) ≠ 0 ∧
            a / (upSeq η ρ g0 g1 (l' + 1) * upSeq η ρ g0 g1 (l' + 1)) < 1e-10))
  | 0, l, w, hk, _, hw => by
    obtain rfl : l = 59 := by omega
    exact ⟨w, 59, rfl, Or.inl ⟨rfl, hw⟩⟩
  | k + 1, l, w, hk, h1, hw => by
    obtain ⟨m, rfl⟩ : ∃ m, l = m + 1 := ⟨l - 1, by omega⟩
    rw [upwardLoop]
    simp only [Nat.add_sub_cancel]
    rw [write_ok w (by omega)]
    have hp : omGfunction (m + 1) η ρ (upSeq η ρ g0 g1 m) (upSeq η ρ g0 g1 (m + 1))
        = upSeq η ρ g0 g1 (m + 2) := rfl
    rw [hp]
    have hw' : ∀ i ≤ m + 1 + 1,
        Function.update w (m + 1 + 1) (⟨upSeq η ρ g0 g1 (m + 2), 0⟩ : ℂ) i
          = ⟨upSeq η ρ g0 g1 i, 0⟩ := by
      intro i hi
      rcases Nat.lt_or_ge i (m + 2) with h | h
      · rw [Function.update_of_ne (by omega), hw i (by omega)]
      · obtain rfl : i = m + 2 := by omega
        simp
    simp only [bind, Except.bind]
    split_ifs with hc
    · exact ⟨_, m + 1, rfl, Or.inr ⟨by omega, by omega, hc.2, hw', hc.1⟩⟩
    · exact upwardLoop_ok η ρ a g0 g1 lmax k (m + 2) _ (by omega) (by omega) hw'

/-! ## Downwards -/

/-- The sequence that the downward loop computes, starting with `u (n + 1) = p1` and `u n = p2`. -/
noncomputable def downSeq (η ρ : ℝ) : ℕ → ℝ → ℝ → ℕ → ℝ
  | 0, p1, p2 => fun i => if i = 0 then p2 else p1
  | n + 1, p1, p2 => fun i =>
    if i = n + 2 then p1 else downSeq η ρ n p2 (omFfunction (n + 1) η ρ p1 p2) i

theorem downSeq_succ (η ρ : ℝ) (n : ℕ) (p1 p2 : ℝ) {i : ℕ} (h : i < n + 2) :
    downSeq η ρ (n + 1) p1 p2 i = downSeq η ρ n p2 (omFfunction (n + 1) η ρ p1 p2) i := by
  show (if i = n + 2 then p1 else downSeq η ρ n p2 (omFfunction (n + 1) η ρ p1 p2) i) = _
  rw [if_neg (by omega)]

theorem downSeq_top (η ρ : ℝ) : ∀ n p1 p2, downSeq η ρ n p1 p2 (n + 1) = p1
  | 0, _, _ => by simp [downSeq]
  | n + 1, _, _ => by simp [downSeq]

theorem downSeq_start (η ρ : ℝ) : ∀ n p1 p2, downSeq η ρ n p1 p2 n = p2
  | 0, _, _ => by simp [downSeq]
  | n + 1, p1, p2 => by
    rw [downSeq_succ _ _ _ _ _ (by omega), downSeq_top]

theorem downSeq_recurrence (η ρ : ℝ) : ∀ n p1 p2 l, 1 ≤ l → l ≤ n →
    CoulombRecurrence η ρ (downSeq η ρ n p1 p2) l
  | 0, _, _, l, h1, h => by omega
  | n + 1, p1, p2, l, h1, h => by
    apply omFfunction_eq h1
    rcases Nat.lt_or_ge l (n + 1) with hl | hl
    · have ih := downSeq_recurrence η ρ n p2 (omFfunction (n + 1) η ρ p1 p2) l h1 (by omega)
      rw [downSeq_succ _ _ _ _ _ (by omega), downSeq_succ _ _ _ _ _ (by omega),
        downSeq_succ _ _ _ _ _ (by omega)]
      generalize downSeq η ρ n p2 (omFfunction (n + 1) η ρ p1 p2) = D at ih ⊢
      rw [recurrence_iff] at ih
      rw [omFfunction]
      have e1 : Real.sqrt ((l : ℝ) * l + η * η) = cs η l := by rw [cs]; congr 1; ring
      have e2 : Real.sqrt (((l + 1 : ℕ) : ℝ) * (l + 1 : ℕ) + η * η) = cs η (l + 1) := by
        rw [cs]; congr 1; ring
      simp only [e1, e2]
      have := (cs_pos η h1).ne'
      have h1' : ((l + 1 : ℕ) : ℝ) ≠ 0 := by positivity
      rw [eq_div_iff (mul_ne_zero h1' this)]
      push_cast
      linear_combination ih
    · obtain rfl : l = n + 1 := by omega
      rw [downSeq_top, downSeq_start, Nat.add_sub_cancel, downSeq_succ _ _ _ _ _ (by omega),
        downSeq_start]

theorem downwardLoop_ok (η ρ : ℝ) (lmax : ℕ) (hl : lmax ≤ 58) :
    ∀ (n : ℕ) (p1 p2 : ℝ) (w : Cells),
      ∃ w', downwardLoop η ρ lmax n p1 p2 w = .ok w' ∧
        ∀ i, w' i = if i < n ∧ i ≤ lmax + 1 then ⟨(w i).re, downSeq η ρ n p1 p2 i⟩ else w i
  | 0, _, _, w => ⟨w, rfl, by intro i; rw [if_neg (by omega)]⟩
  | n + 1, p1, p2, w => by
    rw [downwardLoop]
    set p3 := omFfunction (n + 1) η ρ p1 p2 with hp3
    obtain ⟨w1, h1, e1⟩ : ∃ w1, (if n + 1 ≤ lmax + 2 then w.writeImag n p3 else .ok w) = .ok w1 ∧
        w1 = if n ≤ lmax + 1 then Function.update w n ⟨(w n).re, p3⟩ else w := by
      by_cases hn : n ≤ lmax + 1
      · rw [if_pos (by omega), if_pos hn, writeImag_ok w (by omega)]
        exact ⟨_, rfl, rfl⟩
      · rw [if_neg (by omega), if_neg hn]
        exact ⟨_, rfl, rfl⟩
    obtain ⟨w', h2, e2⟩ := downwardLoop_ok η ρ lmax hl n p2 p3 w1
    refine ⟨w', ?_, ?_⟩
    · by_cases hn : n + 1 ≤ lmax + 2
      · rw [if_pos hn] at h1
        simp only [if_pos hn, h1, bind, Except.bind, h2]
      · rw [if_neg hn] at h1
        simp only [if_neg hn, bind, Except.bind]
        injection h1 with h1
        rw [h1, h2]
    intro i
    rw [e2]
    have hs : ∀ j, j < n + 2 → downSeq η ρ (n + 1) p1 p2 j = downSeq η ρ n p2 p3 j := by
      intro j hj
      exact downSeq_succ _ _ _ _ _ hj
    rcases lt_trichotomy i n with h | h | h
    · have : w1 i = w i := by
        rw [e1]; split_ifs
        · exact Function.update_of_ne (by omega) _ _
        · rfl
      rw [hs i (by omega), this]
      by_cases hi : i ≤ lmax + 1
      · rw [if_pos ⟨h, hi⟩, if_pos ⟨by omega, hi⟩]
      · rw [if_neg (by tauto), if_neg (by tauto)]
    · subst h
      rw [if_neg (by omega), hs i (by omega), downSeq_start, e1]
      by_cases hi : i ≤ lmax + 1
      · rw [if_pos hi, if_pos ⟨by omega, hi⟩]; simp
      · rw [if_neg hi, if_neg (by tauto)]
    · have : w1 i = w i := by
        rw [e1]; split_ifs
        · exact Function.update_of_ne (by omega) _ _
        · rfl
      rw [if_neg (by omega), if_neg (by omega), this]

theorem scaleLoop_ok (a : ℝ) : ∀ (k l : ℕ) (w : Cells), l + k ≤ 60 →
    ∃ w', scaleLoop a k l w = .ok w' ∧
      ∀ i, w' i = if l ≤ i ∧ i < l + k then ⟨(w i).re, (w i).im * a⟩ else w i
  | 0, l, w, _ => ⟨w, rfl, by intro i; rw [if_neg (by omega)]⟩
  | k + 1, l, w, h => by
    rw [scaleLoop, read_ok w (by omega)]
    simp only [bind, Except.bind]
    rw [writeImag_ok w (by omega)]
    simp only
    obtain ⟨w', h1, e1⟩ := scaleLoop_ok a k (l + 1) (Function.update w l ⟨(w l).re, (w l).im * a⟩)
      (by omega)
    refine ⟨w', h1, ?_⟩
    intro i
    rw [e1]
    rcases eq_or_ne i l with rfl | hi
    · rw [if_neg (by omega), if_pos (by omega)]; simp
    · rw [Function.update_of_ne hi]
      by_cases hc : l ≤ i ∧ i < l + (k + 1)
      · rw [if_pos hc, if_pos (by omega)]
      · rw [if_neg hc, if_neg (by omega)]

theorem derivativeLoop_ok (η ρ : ℝ) (w : Cells) (G F : ℕ → ℝ) : ∀ (k l : ℕ) (d : Cells),
    l + k ≤ 59 → (∀ i ≤ l + k, w i = ⟨G i, F i⟩) →
    (∀ i, l ≤ i → i < l + k →
      G i * coulombDerivative η ρ F i - coulombDerivative η ρ G i * F i = 1) →
    ∃ d', derivativeLoop η ρ w k l d = .ok (d', false) ∧
      ∀ i, d' i = if l ≤ i ∧ i < l + k then ⟨coulombDerivative η ρ G i, coulombDerivative η ρ F i⟩
        else d i
  | 0, l, d, _, _, _ => ⟨d, rfl, by intro i; rw [if_neg (by omega)]⟩
  | k + 1, l, d, h, hw, hW => by
    rw [derivativeLoop, read_ok w (by omega), read_ok w (by omega)]
    simp only [bind, Except.bind]
    rw [write_ok d (by omega)]
    simp only [hw l (by omega), hw (l + 1) (by omega), omDfunction_eq]
    rw [if_neg]
    · obtain ⟨d', h1, e1⟩ := derivativeLoop_ok η ρ w G F k (l + 1)
        (Function.update d l ⟨coulombDerivative η ρ G l, coulombDerivative η ρ F l⟩) (by omega)
        (fun i hi => hw i (by omega)) (fun i h1 h2 => hW i (by omega) (by omega))
      refine ⟨d', h1, ?_⟩
      intro i
      rw [e1]
      rcases eq_or_ne i l with rfl | hi
      · rw [if_neg (by omega), if_pos (by omega)]; simp
      · rw [Function.update_of_ne hi]
        by_cases hc : l ≤ i ∧ i < l + (k + 1)
        · rw [if_pos hc, if_pos (by omega)]
        · rw [if_neg hc, if_neg (by omega)]
    · have := hW l (by omega) (by omega)
      rw [show coulombDerivative η ρ F l * G l - coulombDerivative η ρ G l * F l - 1 = 0 by
        linarith]
      norm_num

/-- What the loop around `F` does: in exact arithmetic its first pass is always the last. -/
theorem regularLoop_cases (η ρ g0 g1 : ℝ) (L : ℕ) (h1 : 1 ≤ L) (hL : L ≤ 58) (w d : Cells)
    (hw : ∀ i ≤ L + 1, w i = ⟨upSeq η ρ g0 g1 i, 0⟩) :
    (upSeq η ρ g0 g1 (L + 11) = 0 ∧
      regularLoop η ρ g0 g1 L (L + 10) w d = .error .notFinite) ∨
    ∃ (F : ℕ → ℝ) (w' d' : Cells), upSeq η ρ g0 g1 (L + 11) ≠ 0 ∧
      regularLoop η ρ g0 g1 L (L + 10) w d = .ok (w', d') ∧
      (∀ l, 1 ≤ l → l ≤ L + 10 → CoulombRecurrence η ρ F l) ∧ F (L + 11) = 0 ∧
      (F 0 * g1 - g0 * F 1) * cs η 1 = 1 ∧
      (∀ i ≤ L + 1, w' i = ⟨upSeq η ρ g0 g1 i, F i⟩) ∧
      (∀ i ≤ L, d' i = ⟨coulombDerivative η ρ (upSeq η ρ g0 g1) i, coulombDerivative η ρ F i⟩) ∧
      (∀ i, L < i → d' i = d i) := by
  set G := upSeq η ρ g0 g1 with hG
  set H := downSeq η ρ (L + 10) 0 1e-36 with hH
  have hHr : ∀ l, 1 ≤ l → l ≤ L + 10 → CoulombRecurrence η ρ H l :=
    downSeq_recurrence η ρ (L + 10) 0 1e-36
  have hGr : ∀ l, 1 ≤ l → l ≤ L + 10 → CoulombRecurrence η ρ G l := fun l h _ =>
    upSeq_recurrence η ρ g0 g1 h
  have hcas := casoratian hHr hGr
  have hG0 : G 0 = g0 := rfl
  have hG1 : G 1 = g1 := rfl
  have htop := hcas (L + 10) le_rfl
  rw [hH, downSeq_top, downSeq_start, ← hH] at htop
  obtain ⟨w1, e1, h1w⟩ := downwardLoop_ok η ρ L hL (L + 10) 0 1e-36 w
  have hw1 : ∀ i ≤ L + 1, w1 i = ⟨G i, H i⟩ := by
    intro i hi
    rw [h1w, if_pos ⟨by omega, hi⟩, hw i hi]
  have z0 := hw1 0 (by omega)
  have z1 := hw1 1 (by omega)
  rw [regularLoop]
  rw [e1]
  simp only [bind, Except.bind, read_ok w1 (show (0 : ℕ) < 60 by omega),
    read_ok w1 (show (1 : ℕ) < 60 by omega), z0, z1]
  rw [← cs_one]
  rw [hG0, hG1] at htop
  have hc10 := cs_pos η (l := L + 10 + 1) (by omega)
  by_cases hz : (H 0 * g1 - g0 * H 1) * cs η 1 = 0
  · left
    rw [if_pos hz]
    refine ⟨?_, rfl⟩
    rw [hz, mul_zero, mul_zero] at htop
    have := (mul_eq_zero.mp htop).resolve_right hc10.ne'
    have h2 : (1e-36 : ℝ) * G (L + 10 + 1) = 0 := by linarith
    exact (mul_eq_zero.mp h2).resolve_left (by norm_num)
  · right
    rw [if_neg hz]
    set a := 1 / ((H 0 * g1 - g0 * H 1) * cs η 1) with ha
    obtain ⟨w2, e2, h2w⟩ := scaleLoop_ok a (L + 2) 0 w1 (by omega)
    have hw2 : ∀ i ≤ L + 1, w2 i = ⟨G i, H i * a⟩ := by
      intro i hi
      rw [h2w, if_pos (by omega), hw1 i hi]
    have hFr : ∀ l, 1 ≤ l → l ≤ L + 10 → CoulombRecurrence η ρ (fun i => H i * a) l := by
      intro l h1 h2
      have := recurrence_iff.mp (hHr l h1 h2)
      rw [recurrence_iff]
      linear_combination a * this
    have hnorm : ((fun i => H i * a) 0 * g1 - g0 * (fun i => H i * a) 1) * cs η 1 = 1 := by
      have : a * ((H 0 * g1 - g0 * H 1) * cs η 1) = 1 := by
        exact one_div_mul_cancel hz
      linear_combination this
    have hWr : ∀ i, i ≤ L → G i * coulombDerivative η ρ (fun i => H i * a) i
        - coulombDerivative η ρ G i * (fun i => H i * a) i = 1 := by
      intro i hi
      rw [wronskian_eq, casoratian hFr hGr i (by omega), hG0, hG1, hnorm]
      have : (0 : ℝ) < i + 1 := by positivity
      field_simp
    obtain ⟨d1, e3, h3d⟩ := derivativeLoop_ok η ρ w2 G (fun i => H i * a) (L + 1) 0 d (by omega)
      (fun i hi => hw2 i (by omega)) (fun i _ h => hWr i (by omega))
    refine ⟨fun i => H i * a, w2, d1, ?_, ?_, hFr, ?_, hnorm, hw2, ?_, ?_⟩
    · intro h0
      apply hz
      have hne : ((L + 10 : ℕ) : ℝ) + 1 ≠ 0 := by positivity
      rw [show L + 10 + 1 = L + 11 by omega, h0] at htop
      have : (((L + 10 : ℕ) : ℝ) + 1) * ((H 0 * g1 - g0 * H 1) * cs η 1) = 0 := by
        rw [← htop]; ring
      exact (mul_eq_zero.mp this).resolve_left hne
    · rw [e2]
      simp only
      rw [e3]
      simp only [Bool.false_eq_true, if_false]
      rw [if_neg (by omega)]
    · simp only
      rw [show L + 11 = L + 10 + 1 by omega, hH, downSeq_top, zero_mul]
    · intro i hi
      rw [h3d, if_pos (by omega)]
    · intro i hi
      rw [h3d, if_neg (by omega)]

end Verif
