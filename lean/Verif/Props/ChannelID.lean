import Verif.Lemmas.Strings

/-!
# Properties C07, C08: identifiers
-/

namespace Verif

open Spec

/-- Two sets of quantum numbers that a channel can have: `s` and `J` are non-negative integers
or half-integers. -/
def Physical (q : QuantumNumbers) : Prop := HalfInt q.s ∧ HalfInt q.J

/-- C07: channel identifiers determine the particle-pair identifier and the quantum numbers
(the parity up to its sign, which is all that the code uses of it). -/
theorem C07_channelID_injective (id₁ id₂ : Str) (q₁ q₂ : QuantumNumbers)
    (h₁ : Physical q₁) (h₂ : Physical q₂) :
    makeChannelID id₁ q₁ = makeChannelID id₂ q₂ ↔
      id₁ = id₂ ∧ q₁.l = q₂.l ∧ q₁.s = q₂.s ∧ q₁.J = q₂.J ∧ (0 < q₁.parity ↔ 0 < q₂.parity) := by
  constructor
  · intro h
    unfold makeChannelID QuantumNumbers.toStr at h
    set t : ℤ → Str := fun p => if p > 0 then ['+'] else ['-'] with ht
    have tl : ∀ p, (t p).length = 1 := by intro p; simp only [ht]; split <;> rfl
    have tc : ∀ p c, c ∈ t p → c = '+' ∨ c = '-' := by
      intro p c; simp only [ht]; split <;> simp_all
    simp only [List.append_assoc, List.singleton_append] at h
    have nobrace : ∀ q : QuantumNumbers, Physical q → '{' ∉ (natString q.l ++ ',' ::
        (halfIntegerString q.s ++ ',' :: (halfIntegerString q.J ++ (t q.parity ++ ['}'])))) := by
      intro q hq hm
      simp only [List.mem_append, List.mem_cons, List.not_mem_nil, or_false] at hm
      rcases hm with hm | hm | hm | hm | hm | hm | hm
      · exact (isDig_natString _ _ hm).ne.2.1 rfl
      · exact absurd hm (by decide)
      · rcases halfIntegerString_chars hq.1 _ hm with hd | hd
        · exact hd.ne.2.1 rfl
        · exact absurd hd (by decide)
      · exact absurd hm (by decide)
      · rcases halfIntegerString_chars hq.2 _ hm with hd | hd
        · exact hd.ne.2.1 rfl
        · exact absurd hd (by decide)
      · rcases tc _ _ hm with hd | hd <;> exact absurd hd (by decide)
      · exact absurd hm (by decide)
    obtain ⟨hid, hrest⟩ := append_sep_inj' h (nobrace q₁ h₁) (nobrace q₂ h₂)
    have nocomma_nat : ∀ n, ',' ∉ natString n := fun n hn => (isDig_natString n _ hn).ne.1 rfl
    have nocomma_half : ∀ a, HalfInt a → ',' ∉ halfIntegerString a := by
      intro a ha hm
      rcases halfIntegerString_chars ha _ hm with hd | hd
      · exact hd.ne.1 rfl
      · exact absurd hd (by decide)
    obtain ⟨hl, hrest⟩ := append_sep_inj hrest (nocomma_nat _) (nocomma_nat _)
    obtain ⟨hs, hrest⟩ := append_sep_inj hrest (nocomma_half _ h₁.1) (nocomma_half _ h₂.1)
    obtain ⟨hJ, hrest⟩ := List.append_inj' hrest (by
      have e1 := tl q₁.parity
      have e2 := tl q₂.parity
      simp only [ht] at e1 e2
      rw [List.length_append, List.length_append, e1, e2])
    obtain ⟨hp, -⟩ := List.append_inj' hrest (by simp)
    refine ⟨hid, natString_injective hl, halfIntegerString_inj h₁.1 h₂.1 hs,
      halfIntegerString_inj h₁.2 h₂.2 hJ, ?_⟩
    by_cases c1 : 0 < q₁.parity <;> by_cases c2 : 0 < q₂.parity
    · exact ⟨fun _ => c2, fun _ => c1⟩
    · rw [if_pos c1, if_neg c2] at hp; exact absurd hp (by decide)
    · rw [if_neg c1, if_pos c2] at hp; exact absurd hp (by decide)
    · exact ⟨fun h => absurd h c1, fun h => absurd h c2⟩
  · rintro ⟨rfl, hl, hs, hJ, hp⟩
    unfold makeChannelID QuantumNumbers.toStr
    rw [hl, hs, hJ]
    by_cases h : 0 < q₁.parity
    · rw [if_pos h, if_pos (hp.mp h)]
    · rw [if_neg h, if_neg (fun h' => h (hp.mpr h'))]

/-- The identifier of a Pu-239 channel, as in the documentation of the constructor. -/
example : makeChannelID "n,Pu239_e0".toList ⟨0, 1 / 2, 1, 1⟩ = "n,Pu239_e0{0,1/2,1+}".toList := by
  unfold makeChannelID QuantumNumbers.toStr
  have e1 := halfIntegerString_half 1
  have e2 := halfIntegerString_half 2
  rw [show ((1 : ℕ) : ℚ) / 2 = 1 / 2 by norm_num] at e1
  rw [show ((2 : ℕ) : ℚ) / 2 = 1 by norm_num] at e2
  rw [e1, e2]
  simp [natString]

example : Physical ⟨0, 1 / 2, 1, 1⟩ := ⟨⟨1, by norm_num⟩, ⟨2, by norm_num⟩⟩

/-- The restriction to non-negative values in C07 is needed: `J = -1/2` and `J = 1/2` have the same
string (`modf` truncates towards zero). -/
theorem C07_negative_values_collide :
    halfIntegerString (-1 / 2) = halfIntegerString (1 / 2) := by
  unfold halfIntegerString
  have e1 : ⌈(-1 / 2 : ℚ)⌉ = 0 := by rw [Int.ceil_eq_iff]; norm_num
  have e2 : ⌊(1 / 2 : ℚ)⌋ = 0 := by rw [Int.floor_eq_iff]; norm_num
  have n1 : ¬ (0 : ℚ) ≤ -1 / 2 := by norm_num
  have n2 : (0 : ℚ) ≤ 1 / 2 := by norm_num
  simp only [if_neg n1, if_pos n2, e1, e2]
  norm_num

/-- The text `->` occurs in `s`. -/
def ContainsArrow (s : Str) : Prop := ['-', '>'] <:+: s

/-- Keys split at the arrow as long as the first parts contain none. -/
theorem tMatrixKey_split (a a' b b' : Str)
    (ha : ¬ ContainsArrow a) (ha' : ¬ ContainsArrow a')
    (h : tMatrixKey a b = tMatrixKey a' b') : a = a' ∧ b = b' := by
  unfold tMatrixKey at h
  simp only [List.append_assoc, List.cons_append, List.nil_append] at h
  induction a generalizing a' with
  | nil =>
    match a', h with
    | [], h => simpa using h
    | [x], h =>
      simp only [List.nil_append, List.cons_append, List.cons.injEq] at h
      exact absurd h.2.1 (by decide)
    | x :: y :: a', h =>
      simp only [List.nil_append, List.cons_append, List.cons.injEq] at h
      exact absurd ⟨[], a', by rw [← h.1, ← h.2.1]; rfl⟩ ha'
  | cons x a ih =>
    match a', h with
    | [], h =>
      simp only [List.nil_append, List.cons_append, List.cons.injEq] at h
      match a, h with
      | [], h =>
        simp only [List.nil_append, List.cons.injEq] at h
        exact absurd h.2.1 (by decide)
      | y :: a, h =>
        simp only [List.cons_append, List.cons.injEq] at h
        exact absurd ⟨[], a, by rw [h.1, h.2.1]; rfl⟩ ha
    | y :: a', h =>
      simp only [List.cons_append, List.cons.injEq] at h
      have sub : ∀ (z : Char) (t : Str), ¬ ContainsArrow (z :: t) → ¬ ContainsArrow t := by
        intro z t hz ht
        exact hz (ht.trans (List.infix_cons (List.infix_refl t)))
      obtain ⟨h1, h2⟩ := ih a' (sub _ _ ha) (sub _ _ ha') h.2
      exact ⟨by rw [h.1, h1], h2⟩

theorem not_containsArrow_channelID (id : Str) (q : QuantumNumbers) (hq : Physical q)
    (h : ¬ ContainsArrow id) : ¬ ContainsArrow (makeChannelID id q) := by
  obtain ⟨u, hu, hmem⟩ : ∃ u, makeChannelID id q = id ++ '{' :: u ∧ '>' ∉ u := by
    refine ⟨natString q.l ++ ',' :: (halfIntegerString q.s ++ ',' :: (halfIntegerString q.J ++
      ((if q.parity > 0 then ['+'] else ['-']) ++ ['}']))), ?_, ?_⟩
    · unfold makeChannelID QuantumNumbers.toStr
      simp
    · intro hm
      simp only [List.mem_append, List.mem_cons, List.not_mem_nil, or_false] at hm
      rcases hm with hm | hm | hm | hm | hm | hm | hm
      · exact (isDig_natString _ _ hm).ne.2.2.2.2 rfl
      · exact absurd hm (by decide)
      · rcases halfIntegerString_chars hq.1 _ hm with hd | hd
        · exact hd.ne.2.2.2.2 rfl
        · exact absurd hd (by decide)
      · exact absurd hm (by decide)
      · rcases halfIntegerString_chars hq.2 _ hm with hd | hd
        · exact hd.ne.2.2.2.2 rfl
        · exact absurd hd (by decide)
      · split at hm <;> simp at hm
      · exact absurd hm (by decide)
  rw [hu]
  rintro ⟨p, s, hps⟩
  simp only [List.append_assoc, List.cons_append, List.nil_append] at hps
  rw [List.append_eq_append_iff] at hps
  rcases hps with ⟨m, hm1, hm2⟩ | ⟨m, hm1, hm2⟩
  · match m, hm2 with
    | [], hm2 => simp at hm2
    | [x], hm2 => simp at hm2
    | x :: y :: m, hm2 =>
      simp only [List.cons_append, List.cons.injEq] at hm2
      exact h ⟨p, m, by rw [hm1, ← hm2.1, ← hm2.2.1]; simp⟩
  · have : '>' ∈ '{' :: u := by rw [hm2]; simp
    rcases List.mem_cons.mp this with h | h
    · exact absurd h (by decide)
    · exact hmem h

/-- C08: if no particle-pair identifier contains `->`, the T-matrix key of a pair of channels
determines both channels, whichever spin groups they come from. -/
theorem C08_tMatrixKey_injective (id₁ id₂ id₁' id₂' : Str) (q₁ q₂ q₁' q₂' : QuantumNumbers)
    (p₁ : Physical q₁) (p₂ : Physical q₂) (p₁' : Physical q₁') (p₂' : Physical q₂')
    (ha : ¬ ContainsArrow id₁) (ha' : ¬ ContainsArrow id₁')
    (h : tMatrixKey (makeChannelID id₁ q₁) (makeChannelID id₂ q₂)
       = tMatrixKey (makeChannelID id₁' q₁') (makeChannelID id₂' q₂')) :
    (id₁ = id₁' ∧ q₁.l = q₁'.l ∧ q₁.s = q₁'.s ∧ q₁.J = q₁'.J ∧ (0 < q₁.parity ↔ 0 < q₁'.parity)) ∧
    (id₂ = id₂' ∧ q₂.l = q₂'.l ∧ q₂.s = q₂'.s ∧ q₂.J = q₂'.J ∧ (0 < q₂.parity ↔ 0 < q₂'.parity)) := by
  obtain ⟨h1, h2⟩ := tMatrixKey_split _ _ _ _ (not_containsArrow_channelID id₁ q₁ p₁ ha)
    (not_containsArrow_channelID id₁' q₁' p₁' ha') h
  exact ⟨(C07_channelID_injective _ _ _ _ p₁ p₁').mp h1, (C07_channelID_injective _ _ _ _ p₂ p₂').mp h2⟩

/-- Usual identifiers contain no arrow. -/
example : ¬ ContainsArrow "n,Cl35_e0".toList := by
  unfold ContainsArrow
  decide

/-- The hypothesis of C08 is needed: with arrows in the identifiers two different pairs of channels
can share a key. -/
example : tMatrixKey ("a->b".toList) ("c".toList) = tMatrixKey ("a".toList) ("b->c".toList) := rfl

end Verif
