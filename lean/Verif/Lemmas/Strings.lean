import Verif.Lemmas.QuantumNumbers
import Mathlib.Data.Nat.Digits.Lemmas

/-! Injectivity of the decimal and half-integer strings. -/

namespace Verif

open Spec

/-- Characters `0` to `9`. -/
def isDig (c : Char) : Prop := ∃ d < 10, c = Nat.digitChar d

theorem isDig_natString (n : ℕ) : ∀ c ∈ natString n, isDig c := by
  intro c hc
  unfold natString at hc
  split at hc
  · rw [List.mem_singleton] at hc
    exact ⟨0, by norm_num, by rw [hc]; rfl⟩
  · rw [List.mem_reverse, List.mem_map] at hc
    obtain ⟨d, hd, rfl⟩ := hc
    exact ⟨d, Nat.digits_lt_base (by norm_num) hd, rfl⟩

theorem isDig.ne {c : Char} (h : isDig c) :
    c ≠ ',' ∧ c ≠ '{' ∧ c ≠ '/' ∧ c ≠ '-' ∧ c ≠ '>' := by
  obtain ⟨d, hd, rfl⟩ := h
  have : ∀ d < 10, (Nat.digitChar d ≠ ',' ∧ Nat.digitChar d ≠ '{' ∧ Nat.digitChar d ≠ '/' ∧
    Nat.digitChar d ≠ '-' ∧ Nat.digitChar d ≠ '>') := by decide
  exact this d hd

theorem natString_ne_nil (n : ℕ) : natString n ≠ [] := by
  unfold natString
  split
  · simp
  · rename_i h; simp [Nat.digits_ne_nil_iff_ne_zero.mpr h]

theorem natString_injective : Function.Injective natString := by
  have back : ∀ n, Nat.ofDigits 10 ((natString n).reverse.map (fun c => c.toNat - 48)) = n := by
    intro n
    unfold natString
    split
    · rename_i h; subst h; rfl
    · rw [List.reverse_reverse, List.map_map]
      have : (Nat.digits 10 n).map ((fun c : Char => c.toNat - 48) ∘ Nat.digitChar)
          = Nat.digits 10 n := by
        conv_rhs => rw [← List.map_id (Nat.digits 10 n)]
        apply List.map_congr_left
        intro d hd
        have hd := Nat.digits_lt_base (by norm_num) hd
        have : ∀ d < 10, (Nat.digitChar d).toNat - 48 = d := by decide
        exact this d hd
      rw [this, Nat.ofDigits_digits]
  intro a b h
  rw [← back a, ← back b, h]

theorem halfIntegerString_half (n : ℕ) :
    halfIntegerString ((n : ℚ) / 2) =
      if n % 2 = 0 then natString (n / 2) else natString n ++ ['/', '2'] := by
  unfold halfIntegerString
  have h0 : (0 : ℚ) ≤ (n : ℚ) / 2 := by positivity
  have hfl : ⌊(n : ℚ) / 2⌋ = ((n / 2 : ℕ) : ℤ) := by
    rw [Int.floor_eq_iff]
    have e : n = 2 * (n / 2) + n % 2 := (Nat.div_add_mod n 2).symm
    have e' : (n : ℚ) = 2 * ((n / 2 : ℕ) : ℚ) + ((n % 2 : ℕ) : ℚ) := by exact_mod_cast e
    have hr : ((n % 2 : ℕ) : ℚ) ≤ 1 := by
      have : n % 2 ≤ 1 := by omega
      exact_mod_cast this
    have hr0 : (0 : ℚ) ≤ ((n % 2 : ℕ) : ℚ) := Nat.cast_nonneg _
    rw [Int.cast_natCast]
    constructor <;> linarith
  simp only [if_pos h0, hfl]
  rcases Nat.mod_two_eq_zero_or_one n with h | h
  · have e : (n : ℚ) / 2 - (((n / 2 : ℕ) : ℤ) : ℚ) = 0 := by
      have : n = 2 * (n / 2) := by omega
      have : (n : ℚ) = 2 * ((n / 2 : ℕ) : ℚ) := by exact_mod_cast this
      rw [Int.cast_natCast]; linarith
    rw [if_pos e, if_pos h]
    unfold intString
    rw [if_neg (by omega), Int.natAbs_natCast]
  · have e : (n : ℚ) / 2 - (((n / 2 : ℕ) : ℤ) : ℚ) ≠ 0 := by
      have : n = 2 * (n / 2) + 1 := by omega
      have : (n : ℚ) = 2 * ((n / 2 : ℕ) : ℚ) + 1 := by exact_mod_cast this
      rw [Int.cast_natCast]; intro h; linarith
    rw [if_neg e, if_neg (by omega)]
    unfold intString
    rw [if_neg (by omega)]
    have : (2 * ((n / 2 : ℕ) : ℤ) + 1).natAbs = n := by omega
    rw [this]

theorem halfIntegerString_chars {a : ℚ} (ha : HalfInt a) :
    ∀ c ∈ halfIntegerString a, isDig c ∨ c = '/' := by
  obtain ⟨n, rfl⟩ := ha
  rw [halfIntegerString_half]
  split
  · exact fun c hc => Or.inl (isDig_natString _ c hc)
  · intro c hc
    rw [List.mem_append] at hc
    rcases hc with hc | hc
    · exact Or.inl (isDig_natString _ c hc)
    · simp only [List.mem_cons, List.not_mem_nil, or_false] at hc
      rcases hc with rfl | rfl
      · exact Or.inr rfl
      · exact Or.inl ⟨2, by norm_num, rfl⟩

theorem halfIntegerString_inj {a b : ℚ} (ha : HalfInt a) (hb : HalfInt b)
    (h : halfIntegerString a = halfIntegerString b) : a = b := by
  obtain ⟨m, rfl⟩ := ha
  obtain ⟨n, rfl⟩ := hb
  rw [halfIntegerString_half, halfIntegerString_half] at h
  have noslash : ∀ k, '/' ∉ natString k := fun k hk => (isDig_natString k _ hk).ne.2.2.1 rfl
  split at h <;> split at h
  · have := natString_injective h
    have : m = n := by omega
    rw [this]
  · exfalso; apply noslash (m / 2); rw [h]; simp
  · exfalso; apply noslash (n / 2); rw [← h]; simp
  · have := natString_injective (List.append_cancel_right h)
    rw [this]

/-- Splitting at the first occurrence of a separator. -/
theorem append_sep_inj {α : Type*} {c : α} {a b u v : List α}
    (h : a ++ c :: u = b ++ c :: v) (ha : c ∉ a) (hb : c ∉ b) : a = b ∧ u = v := by
  induction a generalizing b with
  | nil =>
    cases b with
    | nil => simpa using h
    | cons x b =>
      simp only [List.nil_append, List.cons_append, List.cons.injEq] at h
      exact absurd (by rw [← h.1]; simp) hb
  | cons x a ih =>
    cases b with
    | nil =>
      simp only [List.nil_append, List.cons_append, List.cons.injEq] at h
      exact absurd (by rw [h.1]; simp) ha
    | cons y b =>
      simp only [List.cons_append, List.cons.injEq] at h
      obtain ⟨h1, h2⟩ := ih h.2 (fun hh => ha (by simp [hh])) (fun hh => hb (by simp [hh]))
      exact ⟨by rw [h.1, h1], h2⟩

/-- Splitting at the last occurrence of a separator. -/
theorem append_sep_inj' {α : Type*} {c : α} {a b u v : List α}
    (h : a ++ c :: u = b ++ c :: v) (hu : c ∉ u) (hv : c ∉ v) : a = b ∧ u = v := by
  have h' : u.reverse ++ c :: a.reverse = v.reverse ++ c :: b.reverse := by
    have := congrArg List.reverse h
    simpa using this
  obtain ⟨h1, h2⟩ := append_sep_inj h' (by simpa using hu) (by simpa using hv)
  exact ⟨List.reverse_injective h2, List.reverse_injective h1⟩

end Verif
