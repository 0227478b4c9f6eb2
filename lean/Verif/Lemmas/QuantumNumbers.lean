import Verif.Model.QuantumNumbers
import Verif.Spec.QuantumNumbers
import Mathlib.Tactic.Ring
import Mathlib.Tactic.FieldSimp
import Mathlib.Tactic.Push
import Mathlib.Algebra.BigOperators.Group.List.Lemmas
import Mathlib.Data.List.Range
import Mathlib.Tactic.NormNum
import Mathlib.Algebra.Ring.Parity
import Mathlib.Algebra.Order.Ring.Rat

namespace Verif

open Spec

theorem countUp_eq (n : ℕ) : ∀ v : ℚ,
    countUp (v + n) v = (List.range n).map (fun k : ℕ => v + 1 + k) := by
  induction n with
  | zero => intro v; rw [countUp]; simp
  | succ n ih =>
    intro v
    rw [countUp]
    have h : v + ((n + 1 : ℕ) : ℚ) > v := by
      have : (0 : ℚ) ≤ n := Nat.cast_nonneg n
      push_cast; linarith
    rw [if_pos h]
    have e : v + ((n + 1 : ℕ) : ℚ) = (v + 1) + n := by push_cast; ring
    rw [e, ih (v + 1), List.range_succ_eq_map, List.map_cons, List.map_map]
    congr 1
    · simp
    · apply List.map_congr_left; intro k _; simp; ring

/-- The whole coupling list `v, v+1, ..., v+n`. -/
theorem cons_countUp_eq (n : ℕ) (v : ℚ) :
    v :: countUp (v + n) v = (List.range (n + 1)).map (fun k : ℕ => v + k) := by
  rw [countUp_eq, List.range_succ_eq_map, List.map_cons, List.map_map]
  congr 1
  · simp
  · apply List.map_congr_left; intro k _; simp; ring

/-- Shape of the coupling list of two half-integers. -/
theorem coupling_list (a b : ℚ) (ha : HalfInt a) (hb : HalfInt b) :
    ∃ n : ℕ, a + b = |a - b| + n ∧
      |a - b| :: countUp (a + b) |a - b| = (List.range (n + 1)).map (fun k : ℕ => |a - b| + k) ∧
      (n : ℚ) = 2 * min a b := by
  obtain ⟨x, rfl⟩ := ha
  obtain ⟨y, rfl⟩ := hb
  rcases le_total x y with h | h
  · have hq : (x : ℚ) ≤ y := by exact_mod_cast h
    have e : (x : ℚ) / 2 + y / 2 = |(x : ℚ) / 2 - y / 2| + x := by
      rw [abs_of_nonpos (by linarith)]; ring
    refine ⟨x, e, ?_, ?_⟩
    · rw [← cons_countUp_eq, ← e]
    · rw [min_eq_left (by linarith)]; ring
  · have hq : (y : ℚ) ≤ x := by exact_mod_cast h
    have e : (x : ℚ) / 2 + y / 2 = |(x : ℚ) / 2 - y / 2| + y := by
      rw [abs_of_nonneg (by linarith)]; ring
    refine ⟨y, e, ?_, ?_⟩
    · rw [← cons_countUp_eq, ← e]
    · rw [min_eq_right (by linarith)]; ring

theorem mem_coupling_iff (a b c : ℚ) (ha : HalfInt a) (hb : HalfInt b) :
    c ∈ (|a - b| :: countUp (a + b) |a - b|) ↔ Couples a b c := by
  obtain ⟨n, hn, hl, -⟩ := coupling_list a b ha hb
  rw [hl, List.mem_map]
  -- 2 * a is an integer, so `a + b + c` is an integer iff `c - |a - b|` is
  have hint : ∃ z : ℤ, a + b + |a - b| = z := by
    obtain ⟨x, rfl⟩ := ha
    obtain ⟨y, rfl⟩ := hb
    rcases le_total ((x : ℚ) / 2) (y / 2) with h | h
    · exact ⟨y, by rw [abs_of_nonpos (by linarith)]; push_cast; ring⟩
    · exact ⟨x, by rw [abs_of_nonneg (by linarith)]; push_cast; ring⟩
  obtain ⟨z, hz⟩ := hint
  constructor
  · rintro ⟨k, hk, rfl⟩
    rw [List.mem_range] at hk
    have hk' : (k : ℚ) ≤ n := by exact_mod_cast Nat.lt_succ_iff.mp hk
    have h0 : (0 : ℚ) ≤ k := Nat.cast_nonneg k
    refine ⟨by linarith, by linarith, z + k, ?_⟩
    push_cast; linarith
  · rintro ⟨h1, h2, m, hm⟩
    have hd : c - |a - b| = ((m - z : ℤ) : ℚ) := by push_cast; linarith
    have hnn : 0 ≤ m - z := by
      have : (0 : ℚ) ≤ ((m - z : ℤ) : ℚ) := by rw [← hd]; linarith
      exact_mod_cast this
    refine ⟨(m - z).toNat, ?_, ?_⟩
    · rw [List.mem_range]
      have : ((m - z : ℤ) : ℚ) ≤ (n : ℤ) := by rw [← hd]; push_cast; linarith
      have : m - z ≤ n := by exact_mod_cast this
      omega
    · have : (((m - z).toNat : ℕ) : ℚ) = ((m - z : ℤ) : ℚ) := by
        have : (((m - z).toNat : ℕ) : ℤ) = m - z := Int.toNat_of_nonneg hnn
        exact_mod_cast congrArg (fun t : ℤ => (t : ℚ)) this
      rw [this, ← hd]; ring

theorem coupling_sorted (a b : ℚ) (ha : HalfInt a) (hb : HalfInt b) :
    (|a - b| :: countUp (a + b) |a - b|).Pairwise (· < ·) := by
  obtain ⟨n, -, hl, -⟩ := coupling_list a b ha hb
  rw [hl, List.pairwise_map]
  exact (List.pairwise_lt_range (n := n + 1)).imp (fun h => by
    have : ((_ : ℕ) : ℚ) < ((_ : ℕ) : ℚ) := Nat.cast_lt.mpr h
    linarith)

theorem halfInt_natCast (l : ℕ) : HalfInt (l : ℚ) := ⟨2 * l, by push_cast; ring⟩

theorem couples_halfInt {a b c : ℚ} (ha : HalfInt a) (hb : HalfInt b) (h : Couples a b c) :
    HalfInt c := by
  obtain ⟨x, rfl⟩ := ha
  obtain ⟨y, rfl⟩ := hb
  obtain ⟨h1, -, k, hk⟩ := h
  have hc : c = ((2 * k - x - y : ℤ) : ℚ) / 2 := by push_cast; linarith
  have h0 : 0 ≤ c := le_trans (abs_nonneg _) h1
  have : 0 ≤ 2 * k - x - y := by
    have : (0 : ℚ) ≤ ((2 * k - x - y : ℤ) : ℚ) := by linarith
    exact_mod_cast this
  refine ⟨(2 * k - x - y).toNat, ?_⟩
  have e : (((2 * k - x - y).toNat : ℕ) : ℤ) = 2 * k - x - y := Int.toNat_of_nonneg this
  have e' : (((2 * k - x - y).toNat : ℕ) : ℚ) = ((2 * k - x - y : ℤ) : ℚ) := by
    exact_mod_cast congrArg (fun t : ℤ => (t : ℚ)) e
  rw [hc, e']

/-- Sum of `2 c + 1` over an arithmetic list. -/
theorem sum_two_mul_add_one (v : ℚ) (n : ℕ) :
    (((List.range (n + 1)).map (fun k : ℕ => v + k)).map (fun c => 2 * c + 1)).sum
      = (n + 1) * (2 * v + n + 1) := by
  induction n with
  | zero => simp
  | succ n ih =>
    rw [List.range_succ, List.map_append, List.map_append, List.sum_append, ih]
    simp; ring

theorem coupling_sum (a b : ℚ) (ha : HalfInt a) (hb : HalfInt b) :
    (((|a - b| :: countUp (a + b) |a - b|)).map (fun c => 2 * c + 1)).sum
      = (2 * a + 1) * (2 * b + 1) := by
  obtain ⟨n, hn, hl, hmin⟩ := coupling_list a b ha hb
  rw [hl, sum_two_mul_add_one, hmin]
  rcases le_total a b with h | h
  · rw [min_eq_left h, abs_of_nonpos (by linarith)]; ring
  · rw [min_eq_right h, abs_of_nonneg (by linarith)]; ring

/-- The list `m/2, m/2+1, ..., M/2` in terms of doubled values. -/
theorem mem_cons_countUp_half (m k : ℕ) (c : ℚ) :
    c ∈ ((m : ℚ) / 2 :: countUp (((m + 2 * k : ℕ) : ℚ) / 2) ((m : ℚ) / 2)) ↔
      ∃ z : ℕ, c = z / 2 ∧ m ≤ z ∧ z ≤ m + 2 * k ∧ z % 2 = m % 2 := by
  have e : (((m + 2 * k : ℕ) : ℚ) / 2) = (m : ℚ) / 2 + k := by push_cast; ring
  rw [e, cons_countUp_eq, List.mem_map]
  constructor
  · rintro ⟨j, hj, rfl⟩
    rw [List.mem_range] at hj
    exact ⟨m + 2 * j, by push_cast; ring, by omega, by omega, by omega⟩
  · rintro ⟨z, rfl, h1, h2, h3⟩
    refine ⟨(z - m) / 2, ?_, ?_⟩
    · rw [List.mem_range]; omega
    · have : z = m + 2 * ((z - m) / 2) := by omega
      have h := congrArg (fun t : ℕ => (t : ℚ)) this
      push_cast at h
      linarith

/-- Coupling in terms of doubled values. -/
theorem couples_half_iff (x y : ℕ) (c : ℚ) :
    Couples ((x : ℚ) / 2) ((y : ℚ) / 2) c ↔
      ∃ z : ℕ, c = z / 2 ∧ x ≤ y + z ∧ y ≤ x + z ∧ z ≤ x + y ∧ (x + y + z) % 2 = 0 := by
  constructor
  · intro h
    obtain ⟨z, rfl⟩ := couples_halfInt ⟨x, rfl⟩ ⟨y, rfl⟩ h
    obtain ⟨h1, h2, k, hk⟩ := h
    rw [abs_le] at h1
    refine ⟨z, rfl, ?_, ?_, ?_, ?_⟩
    · have : (x : ℚ) ≤ y + z := by linarith
      exact_mod_cast this
    · have : (y : ℚ) ≤ x + z := by linarith
      exact_mod_cast this
    · have : (z : ℚ) ≤ x + y := by linarith
      exact_mod_cast this
    · have : ((x + y + z : ℤ) : ℚ) = ((2 * k : ℤ) : ℚ) := by push_cast; linarith
      have : (x + y + z : ℤ) = 2 * k := by exact_mod_cast this
      omega
  · rintro ⟨z, rfl, h1, h2, h3, h4⟩
    have h1' : (x : ℚ) ≤ y + z := by exact_mod_cast h1
    have h2' : (y : ℚ) ≤ x + z := by exact_mod_cast h2
    have h3' : (z : ℚ) ≤ x + y := by exact_mod_cast h3
    refine ⟨?_, by linarith, (((x + y + z) / 2 : ℕ) : ℤ), ?_⟩
    · rw [abs_le]; constructor <;> linarith
    · have : x + y + z = 2 * ((x + y + z) / 2) := by omega
      have h := congrArg (fun t : ℕ => (t : ℚ)) this
      push_cast at h
      rw [Int.cast_natCast]
      linarith

/-- Which total angular momenta can be reached by coupling `c` with a channel spin made of
`a` and `b` (all doubled). -/
theorem couples_chain_half_iff (a b c : ℕ) (J : ℚ) :
    (∃ s, Couples ((a : ℚ) / 2) ((b : ℚ) / 2) s ∧ Couples ((c : ℚ) / 2) s J) ↔
      ∃ j : ℕ, J = j / 2 ∧ a ≤ b + (c + j) ∧ b ≤ a + (c + j) ∧ c ≤ j + (a + b) ∧
        j ≤ c + (a + b) ∧ (a + b + c + j) % 2 = 0 := by
  constructor
  · rintro ⟨s, h1, h2⟩
    obtain ⟨t, rfl, -⟩ := (couples_half_iff a b s).mp h1
    obtain ⟨j, rfl, g⟩ := (couples_half_iff c t J).mp h2
    obtain ⟨t', ht', g'⟩ := (couples_half_iff a b _).mp h1
    have : t = t' := by
      have : (t : ℚ) = t' := by linarith
      exact_mod_cast this
    subst this
    exact ⟨j, rfl, by omega, by omega, by omega, by omega, by omega⟩
  · rintro ⟨j, rfl, h⟩
    refine ⟨((max (max (a - b) (b - a)) (max (c - j) (j - c)) : ℕ) : ℚ) / 2, ?_, ?_⟩
    · exact (couples_half_iff _ _ _).mpr ⟨_, rfl, by omega, by omega, by omega, by omega⟩
    · exact (couples_half_iff _ _ _).mpr ⟨_, rfl, by omega, by omega, by omega, by omega⟩

theorem abs_half_sub (x y : ℕ) :
    |(x : ℚ) / 2 - (y : ℚ) / 2| = ((max (x - y) (y - x) : ℕ) : ℚ) / 2 := by
  rcases le_total x y with h | h
  · have hq : (x : ℚ) ≤ y := by exact_mod_cast h
    rw [abs_of_nonpos (by linarith)]
    have : max (x - y) (y - x) = y - x := by omega
    rw [this, Nat.cast_sub h]; ring
  · have hq : (y : ℚ) ≤ x := by exact_mod_cast h
    rw [abs_of_nonneg (by linarith)]
    have : max (x - y) (y - x) = x - y := by omega
    rw [this, Nat.cast_sub h]; ring

/-- Members of the three argument list in terms of doubled values. -/
theorem mem_possibleJValues3_half (l a b : ℕ) (J : ℚ) :
    J ∈ possibleJValues3 l ((a : ℚ) / 2) ((b : ℚ) / 2) ↔
      ∃ j : ℕ, J = j / 2 ∧
        max (max (2 * l - b) (b - 2 * l) - a) (a - max (2 * l - b) (b - 2 * l)) ≤ j ∧
        j ≤ 2 * l + b + a ∧ (a + b + 2 * l + j) % 2 = 0 := by
  unfold possibleJValues3
  have e0 : (l : ℚ) = ((2 * l : ℕ) : ℚ) / 2 := by push_cast; ring
  rw [e0, abs_half_sub, abs_half_sub]
  set m := max (max (2 * l - b) (b - 2 * l) - a) (a - max (2 * l - b) (b - 2 * l)) with hm
  have hle : m ≤ 2 * l + b + a := by omega
  have hpar : m % 2 = (2 * l + b + a) % 2 := by omega
  have e1 : ((2 * l : ℕ) : ℚ) / 2 + (b : ℚ) / 2 + (a : ℚ) / 2
      = ((m + 2 * ((2 * l + b + a - m) / 2) : ℕ) : ℚ) / 2 := by
    have : m + 2 * ((2 * l + b + a - m) / 2) = 2 * l + b + a := by omega
    rw [this]; push_cast; ring
  rw [e1, mem_cons_countUp_half]
  constructor
  · rintro ⟨j, rfl, h1, h2, h3⟩; exact ⟨j, rfl, by omega, by omega, by omega⟩
  · rintro ⟨j, rfl, h1, h2, h3⟩; exact ⟨j, rfl, by omega, by omega, by omega⟩

/-- The enumeration order of `makeQuantumNumbers`: increasing `l`, then `s`, then `J`. -/
def QNLt (p q : QuantumNumbers) : Prop :=
  p.l < q.l ∨ (p.l = q.l ∧ (p.s < q.s ∨ (p.s = q.s ∧ p.J < q.J)))

theorem makeQuantumNumbers_sorted (i I : ℚ) (hi : HalfInt i) (hI : HalfInt I) (lmax : ℕ) :
    (makeQuantumNumbers i I lmax).Pairwise QNLt := by
  unfold makeQuantumNumbers
  rw [List.pairwise_flatMap]
  refine ⟨fun l _ => ?_, ?_⟩
  · rw [List.pairwise_flatMap]
    refine ⟨fun s hs => ?_, ?_⟩
    · rw [List.pairwise_map]
      have hs' : HalfInt s := couples_halfInt hi hI ((mem_coupling_iff i I s hi hI).mp hs)
      exact (coupling_sorted l s (halfInt_natCast l) hs').imp
        (fun h => Or.inr ⟨rfl, Or.inr ⟨rfl, h⟩⟩)
    · refine (coupling_sorted i I hi hI).imp (fun {s t} h => ?_)
      intro p hp q hq
      rw [List.mem_map] at hp hq
      obtain ⟨_, _, rfl⟩ := hp
      obtain ⟨_, _, rfl⟩ := hq
      exact Or.inr ⟨rfl, Or.inl h⟩
  · refine (List.pairwise_lt_range (n := lmax)).imp (fun {l m} h => ?_)
    intro p hp q hq
    rw [List.mem_flatMap] at hp hq
    obtain ⟨_, _, hp⟩ := hp
    obtain ⟨_, _, hq⟩ := hq
    rw [List.mem_map] at hp hq
    obtain ⟨_, _, rfl⟩ := hp
    obtain ⟨_, _, rfl⟩ := hq
    exact Or.inl h

theorem parityOfL_eq (l : ℕ) : parityOfL l = (-1) ^ l := by
  unfold parityOfL
  rcases Nat.even_or_odd l with h | h
  · simp [h.neg_one_pow]
  · rw [h.neg_one_pow, h.neg_one_pow]; norm_num

end Verif
