import Verif.Lemmas.QuantumNumbers
import Mathlib.Algebra.BigOperators.Ring.List

/-!
# Properties C02 - C06: angular momentum coupling and channel assignment
-/

namespace Verif

open Spec

/-! ## C03 -/

/-- C03: the list of channel spins of two particles with spins `i` and `I` is strictly increasing
(hence free of repetitions) and contains exactly the values to which `i` and `I` couple. -/
theorem C03_channelSpins (i I : ℚ) (hi : HalfInt i) (hI : HalfInt I) :
    (possibleChannelSpinValues i I).Pairwise (· < ·) ∧
      ∀ s, s ∈ possibleChannelSpinValues i I ↔ Couples i I s :=
  ⟨coupling_sorted i I hi hI, fun s => mem_coupling_iff i I s hi hI⟩

/-- C03: the list of total angular momenta for orbital momentum `l` and channel spin `s`. -/
theorem C03_totalAngularMomenta (l : ℕ) (s : ℚ) (hs : HalfInt s) :
    (possibleJValues l s).Pairwise (· < ·) ∧
      ∀ J, J ∈ possibleJValues l s ↔ Couples l s J :=
  ⟨coupling_sorted l s (halfInt_natCast l) hs,
    fun J => mem_coupling_iff l s J (halfInt_natCast l) hs⟩

/-- A neutron on a spin 7/2 target has channel spins 3 and 4. -/
example : possibleChannelSpinValues (1 / 2) (7 / 2) = [3, 4] := by
  have e : |(1 / 2 : ℚ) - 7 / 2| = 3 := by norm_num [abs_of_nonpos]
  unfold possibleChannelSpinValues
  rw [e, show (1 / 2 : ℚ) + 7 / 2 = 3 + ((1 : ℕ) : ℚ) by norm_num, cons_countUp_eq]
  norm_num [List.range_succ]

example : HalfInt (1 / 2) ∧ HalfInt (7 / 2) := ⟨⟨1, by norm_num⟩, ⟨7, by norm_num⟩⟩

/-! ## C04 -/

/-- The claim C04 in full: the three argument list is the union over the channel spins. -/
def C04_claim (l : ℕ) (i I : ℚ) : Prop :=
  ∀ J, J ∈ possibleJValues3 l i I ↔ ∃ s, Couples i I s ∧ Couples l s J

/-- C04, exact extent: the three argument list is right if and only if the projectile spin exceeds
`|l - I|` by at most one half, or one of `l`, `I` is zero. -/
theorem C04_exact_extent (l : ℕ) (i I : ℚ) (hi : HalfInt i) (hI : HalfInt I) :
    C04_claim l i I ↔ (i ≤ |(l : ℚ) - I| + 1 / 2 ∨ l = 0 ∨ I = 0) := by
  obtain ⟨a, rfl⟩ := hi
  obtain ⟨b, rfl⟩ := hI
  have e0 : (l : ℚ) = ((2 * l : ℕ) : ℚ) / 2 := by push_cast; ring
  have hcond : ((a : ℚ) / 2 ≤ |(l : ℚ) - (b : ℚ) / 2| + 1 / 2 ∨ l = 0 ∨ (b : ℚ) / 2 = 0) ↔
      (a ≤ max (2 * l - b) (b - 2 * l) + 1 ∨ l = 0 ∨ b = 0) := by
    rw [e0, abs_half_sub]
    have h1 : ((a : ℚ) / 2 ≤ ((max (2 * l - b) (b - 2 * l) : ℕ) : ℚ) / 2 + 1 / 2) ↔
        a ≤ max (2 * l - b) (b - 2 * l) + 1 := by
      constructor
      · intro h
        have : (a : ℚ) ≤ ((max (2 * l - b) (b - 2 * l) + 1 : ℕ) : ℚ) := by
          push_cast at h ⊢; linarith
        exact_mod_cast this
      · intro h
        have : (a : ℚ) ≤ ((max (2 * l - b) (b - 2 * l) + 1 : ℕ) : ℚ) := by exact_mod_cast h
        push_cast at this ⊢; linarith
    have h2 : ((b : ℚ) / 2 = 0) ↔ b = 0 := by
      constructor
      · intro h
        have : (b : ℚ) = 0 := by linarith
        exact_mod_cast this
      · rintro rfl; norm_num
    rw [h1, h2]
  rw [hcond]
  unfold C04_claim
  rw [show (∀ J, J ∈ possibleJValues3 l ((a : ℚ) / 2) ((b : ℚ) / 2) ↔
      ∃ s, Couples ((a : ℚ) / 2) ((b : ℚ) / 2) s ∧ Couples l s J) ↔ ∀ j : ℕ,
      ((max (max (2 * l - b) (b - 2 * l) - a) (a - max (2 * l - b) (b - 2 * l)) ≤ j ∧
        j ≤ 2 * l + b + a ∧ (a + b + 2 * l + j) % 2 = 0) ↔
       (a ≤ b + (2 * l + j) ∧ b ≤ a + (2 * l + j) ∧ 2 * l ≤ j + (a + b) ∧
        j ≤ 2 * l + (a + b) ∧ (a + b + 2 * l + j) % 2 = 0)) from ?_]
  · constructor
    · intro h
      by_contra hne
      -- the total angular momentum just below the computed minimum is reachable but missing
      have := h (max (max (2 * l - b) (b - 2 * l) - a) (a - max (2 * l - b) (b - 2 * l)) - 2)
      omega
    · intro h j
      omega
  · have key := couples_chain_half_iff a b (2 * l)
    constructor
    · intro h j
      have hj := h ((j : ℚ) / 2)
      rw [mem_possibleJValues3_half, e0, key] at hj
      have inj : ∀ k : ℕ, (j : ℚ) / 2 = k / 2 → j = k := fun k hk => by
        have : (j : ℚ) = k := by linarith
        exact_mod_cast this
      constructor
      · intro hh
        obtain ⟨k, hk, g⟩ := hj.mp ⟨j, rfl, hh⟩
        rw [← inj k hk] at g; exact g
      · intro hh
        obtain ⟨k, hk, g⟩ := hj.mpr ⟨j, rfl, hh⟩
        rw [← inj k hk] at g; exact g
    · intro h J
      rw [mem_possibleJValues3_half, e0, key]
      constructor
      · rintro ⟨j, rfl, g⟩; exact ⟨j, rfl, (h j).mp g⟩
      · rintro ⟨j, rfl, g⟩; exact ⟨j, rfl, (h j).mpr g⟩

/-- C04, partial: right for every projectile of spin 0 or 1/2 (in particular for neutrons).
Missing: projectiles of higher spin, for which the claim is false (next theorem). -/
theorem C04_spin_half_partial (l : ℕ) (i I : ℚ) (hI : HalfInt I) (hi : i = 0 ∨ i = 1 / 2) (J : ℚ) :
    J ∈ possibleJValues3 l i I ↔ ∃ s, Couples i I s ∧ Couples l s J := by
  have hi' : HalfInt i := by
    rcases hi with rfl | rfl
    · exact ⟨0, by norm_num⟩
    · exact ⟨1, by norm_num⟩
  refine (C04_exact_extent l i I hi' hI).mpr (Or.inl ?_) J
  have := abs_nonneg ((l : ℚ) - I)
  rcases hi with rfl | rfl <;> linarith

/-- C04 is false in general: for `l = 1` and two particles of spin 1 (a deuteron on a spin 1
target) the value `J = 0` is possible but not returned. -/
theorem C04_disproved : ¬ ∀ (l : ℕ) (i I : ℚ), HalfInt i → HalfInt I → C04_claim l i I := by
  intro h
  have h1 : HalfInt 1 := ⟨2, by norm_num⟩
  have := (C04_exact_extent 1 1 1 h1 h1).mp (h 1 1 1 h1 h1)
  norm_num at this

/-! ## C05 -/

/-- C05: the enumeration contains exactly the coupled sets with `l < lmax`, with parity
`(-1)^l`, in strictly increasing lexicographic order of `(l,s,J)`. -/
theorem C05_enumeration (i I : ℚ) (hi : HalfInt i) (hI : HalfInt I) (lmax : ℕ) :
    (∀ q, q ∈ makeQuantumNumbers i I lmax ↔
      q.l < lmax ∧ Couples i I q.s ∧ Couples q.l q.s q.J ∧ q.parity = (-1) ^ q.l) ∧
    (makeQuantumNumbers i I lmax).Nodup ∧
    (makeQuantumNumbers i I lmax).Pairwise (fun p q =>
      p.l < q.l ∨ (p.l = q.l ∧ (p.s < q.s ∨ (p.s = q.s ∧ p.J < q.J)))) := by
  refine ⟨fun q => ?_, ?_, makeQuantumNumbers_sorted i I hi hI lmax⟩
  · unfold makeQuantumNumbers
    simp only [List.mem_flatMap, List.mem_map, List.mem_range]
    constructor
    · rintro ⟨l, hl, s, hs, J, hJ, rfl⟩
      have hs' := (mem_coupling_iff i I s hi hI).mp hs
      exact ⟨hl, hs', (mem_coupling_iff l s J (halfInt_natCast l)
        (couples_halfInt hi hI hs')).mp hJ, parityOfL_eq l⟩
    · rintro ⟨hl, hs, hJ, hp⟩
      refine ⟨q.l, hl, q.s, (mem_coupling_iff i I q.s hi hI).mpr hs, q.J,
        (mem_coupling_iff q.l q.s q.J (halfInt_natCast q.l)
          (couples_halfInt hi hI hs)).mpr hJ, ?_⟩
      rw [parityOfL_eq, ← hp]
  · refine (makeQuantumNumbers_sorted i I hi hI lmax).imp (fun {p q} h => ?_)
    rintro rfl
    rcases h with h | ⟨-, h | ⟨-, h⟩⟩ <;> exact lt_irrefl _ h

/-- A neutron on a spin 1 target: `(l,s,J) = (2, 3/2, 5/2)` with positive parity is enumerated. -/
example : (⟨2, 3 / 2, 5 / 2, 1⟩ : QuantumNumbers) ∈ makeQuantumNumbers (1 / 2) 1 3 := by
  refine ((C05_enumeration (1 / 2) 1 ⟨1, by norm_num⟩ ⟨2, by norm_num⟩ 3).1 _).mpr
    ⟨by norm_num, ⟨?_, by norm_num, 3, by norm_num⟩, ⟨?_, by norm_num, 6, by norm_num⟩, by norm_num⟩
  · norm_num [abs_le]
  · norm_num [abs_le]

/-! ## C02 -/

/-- C02: the statistical spin factors of all enumerated channels with orbital angular momentum `l`
add up to exactly `2 l + 1`, for any spins of the two particles. -/
theorem C02_spin_factors_exhaust (i I : ℚ) (hi : HalfInt i) (hI : HalfInt I) (lmax l : ℕ)
    (hl : l < lmax) :
    (((makeQuantumNumbers i I lmax).filter (fun q => q.l = l)).map
      (fun q => statisticalSpinFactor q.J i I)).sum = 2 * l + 1 := by
  have hi0 : 2 * i + 1 ≠ 0 := by
    obtain ⟨x, rfl⟩ := hi
    have : (0 : ℚ) ≤ x := Nat.cast_nonneg x
    intro h; linarith
  have hI0 : 2 * I + 1 ≠ 0 := by
    obtain ⟨x, rfl⟩ := hI
    have : (0 : ℚ) ≤ x := Nat.cast_nonneg x
    intro h; linarith
  -- the contribution of one value of `l`
  have hone : ∀ l : ℕ, (((possibleChannelSpinValues i I).flatMap fun s =>
      (possibleJValues l s).map fun J => (⟨l, s, J, parityOfL l⟩ : QuantumNumbers)).map
      (fun q => statisticalSpinFactor q.J i I)).sum = 2 * l + 1 := by
    intro l
    have key : ∀ L : List ℚ, (∀ s ∈ L, HalfInt s) → ((L.flatMap fun s =>
        (possibleJValues l s).map fun J => (⟨l, s, J, parityOfL l⟩ : QuantumNumbers)).map
        (fun q => statisticalSpinFactor q.J i I)).sum
        = (2 * l + 1) / (2 * i + 1) / (2 * I + 1) * (L.map (fun s => 2 * s + 1)).sum := by
      intro L
      induction L with
      | nil => simp
      | cons s L ih =>
        intro hL
        have hs := hL s (by simp)
        have hJ : (((possibleJValues l s).map
            fun J => (⟨l, s, J, parityOfL l⟩ : QuantumNumbers)).map
            (fun q => statisticalSpinFactor q.J i I)).sum
            = (2 * l + 1) / (2 * i + 1) / (2 * I + 1) * (2 * s + 1) := by
          rw [List.map_map]
          have e : (fun q : QuantumNumbers => statisticalSpinFactor q.J i I) ∘
              (fun J => (⟨l, s, J, parityOfL l⟩ : QuantumNumbers))
              = fun J => (2 * J + 1) * (1 / (2 * i + 1) / (2 * I + 1)) := by
            funext J; simp only [Function.comp, statisticalSpinFactor]; ring
          rw [e, List.sum_map_mul_right]
          have := coupling_sum l s (halfInt_natCast l) hs
          unfold possibleJValues
          rw [this]; ring
        rw [List.flatMap_cons, List.map_append, List.sum_append, hJ,
          ih (fun t ht => hL t (by simp [ht])), List.map_cons, List.sum_cons]
        ring
    rw [key (possibleChannelSpinValues i I) (fun s hs => couples_halfInt hi hI ((mem_coupling_iff i I s hi hI).mp hs))]
    have hsum : ((possibleChannelSpinValues i I).map (fun s => 2 * s + 1)).sum
        = (2 * i + 1) * (2 * I + 1) := coupling_sum i I hi hI
    rw [hsum]
    field_simp
  have hflat : ∀ R : List ℕ, R.Nodup → l ∈ R →
      (((R.flatMap fun l => (possibleChannelSpinValues i I).flatMap fun s =>
        (possibleJValues l s).map fun J => (⟨l, s, J, parityOfL l⟩ : QuantumNumbers)).filter
          (fun q => q.l = l)).map (fun q => statisticalSpinFactor q.J i I)).sum = 2 * l + 1 := by
    intro R
    have hfil : ∀ m : ℕ, (((possibleChannelSpinValues i I).flatMap fun s =>
        (possibleJValues m s).map fun J => (⟨m, s, J, parityOfL m⟩ : QuantumNumbers)).filter
          (fun q => q.l = l)) = if m = l then ((possibleChannelSpinValues i I).flatMap fun s =>
        (possibleJValues m s).map fun J => (⟨m, s, J, parityOfL m⟩ : QuantumNumbers)) else [] := by
      intro m
      split_ifs with h
      · rw [List.filter_eq_self]
        intro q hq
        simp only [List.mem_flatMap, List.mem_map] at hq
        obtain ⟨_, _, _, _, rfl⟩ := hq
        simpa using h
      · rw [List.filter_eq_nil_iff]
        intro q hq
        simp only [List.mem_flatMap, List.mem_map] at hq
        obtain ⟨_, _, _, _, rfl⟩ := hq
        simpa using h
    induction R with
    | nil => intro _ h; simp at h
    | cons m R ih =>
      intro hnd hmem
      rw [List.nodup_cons] at hnd
      rw [List.flatMap_cons, List.filter_append, List.map_append, List.sum_append, hfil]
      by_cases hm : m = l
      · subst hm
        have hz : (R.flatMap fun l => (possibleChannelSpinValues i I).flatMap fun s =>
            (possibleJValues l s).map fun J => (⟨l, s, J, parityOfL l⟩ : QuantumNumbers)).filter
            (fun q => q.l = m) = [] := by
          rw [List.filter_eq_nil_iff]
          intro q hq
          simp only [List.mem_flatMap, List.mem_map] at hq
          obtain ⟨k, hk, _, _, _, _, rfl⟩ := hq
          simp only [decide_eq_true_eq]
          rintro rfl
          exact hnd.1 hk
        rw [if_pos rfl, hone, hz]; simp
      · rw [if_neg hm]
        have : l ∈ R := by
          rcases List.mem_cons.mp hmem with h | h
          · exact absurd h.symm hm
          · exact h
        simpa using ih hnd.2 this
  exact hflat (List.range lmax) List.nodup_range (List.mem_range.mpr hl)

/-- For a neutron on a spin 3/2 target the `l = 2` channels have spin factors adding up to 5. -/
example : (((makeQuantumNumbers (1 / 2) (3 / 2) 3).filter (fun q => q.l = 2)).map
    (fun q => statisticalSpinFactor q.J (1 / 2) (3 / 2))).sum = 5 := by
  rw [C02_spin_factors_exhaust (1 / 2) (3 / 2) ⟨1, by norm_num⟩ ⟨3, by norm_num⟩ 3 2 (by norm_num)]
  norm_num

/-! ## C06 -/

/-- C06: a lookup fails, by an exception, exactly when no set with this `l` and `|J|` is left. -/
theorem C06_fails_iff (l : ℕ) (j : ℚ) (available : List QuantumNumbers) (e : Failure) :
    retrieveQuantumNumber l j available = .error e ↔
      e = .throws ∧ ∀ q ∈ available, ¬ (q.l = l ∧ q.J = |j|) := by
  unfold retrieveQuantumNumber
  constructor
  · intro h
    split at h
    · rename_i hf
      refine ⟨by simpa using h.symm, fun q hq hc => ?_⟩
      rw [List.filter_eq_nil_iff] at hf
      exact hf q hq (by simpa using hc)
    · simp at h
    · simp at h
  · rintro ⟨rfl, h⟩
    have : available.filter (fun n => n.l == l && n.J == |j|) = [] := by
      rw [List.filter_eq_nil_iff]
      intro q hq; simpa using h q hq
    rw [this]

/-- C06: a successful lookup returns a set with the requested `l` and `|J|` that was available and
removes exactly one occurrence of it. -/
theorem C06_success (l : ℕ) (j : ℚ) (available rest : List QuantumNumbers) (q : QuantumNumbers)
    (h : retrieveQuantumNumber l j available = .ok (q, rest)) :
    q.l = l ∧ q.J = |j| ∧ (q :: rest).Perm available := by
  have main : ∀ n, n ∈ available.filter (fun n => n.l == l && n.J == |j|) →
      n.l = l ∧ n.J = |j| ∧ (n :: available.erase n).Perm available := by
    intro n hn
    rw [List.mem_filter] at hn
    obtain ⟨h1, h2⟩ := hn
    simp only [Bool.and_eq_true, beq_iff_eq] at h2
    exact ⟨h2.1, h2.2, (List.perm_cons_erase h1).symm⟩
  unfold retrieveQuantumNumber at h
  split at h
  · simp at h
  · rename_i n hf
    simp only [Except.ok.injEq, Prod.mk.injEq] at h
    obtain ⟨rfl, rfl⟩ := h
    exact main _ (by rw [hf]; simp)
  · rename_i n m t hf
    simp only [Except.ok.injEq, Prod.mk.injEq] at h
    obtain ⟨hq, rfl⟩ := h
    rw [hq]
    apply main
    rw [hf, ← hq]
    split
    · simp
    · exact List.getLast_mem _

/-- C06: after any sequence of successful lookups the sets handed out, in order, match the requests
and together with the remaining ones are a permutation of the initial list. In particular nothing
is handed out twice if the initial list has no repetitions. -/
theorem C06_conservation (requests : List (ℕ × ℚ)) (available got rest : List QuantumNumbers)
    (h : retrieveAll requests available = .ok (got, rest)) :
    (got ++ rest).Perm available ∧
      List.Forall₂ (fun r q => q.l = r.1 ∧ q.J = |r.2|) requests got ∧
      (available.Nodup → got.Nodup) := by
  suffices hh : (got ++ rest).Perm available ∧
      List.Forall₂ (fun r q => q.l = r.1 ∧ q.J = |r.2|) requests got by
    refine ⟨hh.1, hh.2, fun hn => ?_⟩
    exact (List.nodup_append.mp (hh.1.nodup_iff.mpr hn)).1
  induction requests generalizing available got rest with
  | nil =>
    simp only [retrieveAll, Except.ok.injEq, Prod.mk.injEq] at h
    obtain ⟨rfl, rfl⟩ := h
    simp
  | cons r requests ih =>
    obtain ⟨l, j⟩ := r
    simp only [retrieveAll] at h
    split at h
    · simp at h
    · rename_i q remaining hq
      split at h
      · simp at h
      · rename_i qs rest' hqs
        simp only [Except.ok.injEq, Prod.mk.injEq] at h
        obtain ⟨rfl, rfl⟩ := h
        obtain ⟨h1, h2, h3⟩ := C06_success l j available remaining q hq
        obtain ⟨h4, h5⟩ := ih remaining qs rest' hqs
        exact ⟨(List.Perm.cons q h4).trans h3, List.Forall₂.cons ⟨h1, h2⟩ h5⟩

/-- C06, sign convention: for a neutron on a target of spin `I ≥ 1/2`, if both channel spins
`I - 1/2` and `I + 1/2` couple with `l` to `J > 0`, then asking for `-J` and `+J`, in either order,
assigns the lower channel spin to `-J` and the higher one to `+J`. -/
theorem C06_sign_selects_channel_spin (I J : ℚ) (l lmax : ℕ) (hI : HalfInt I) (hI0 : 1 / 2 ≤ I)
    (hJ : 0 < J) (hl : l < lmax)
    (hlow : Couples l (I - 1 / 2) J) (hhigh : Couples l (I + 1 / 2) J) :
    (∃ rest, retrieveAll [(l, -J), (l, J)] (makeQuantumNumbers (1 / 2) I lmax) =
      .ok ([⟨l, I - 1 / 2, J, (-1) ^ l⟩, ⟨l, I + 1 / 2, J, (-1) ^ l⟩], rest)) ∧
    (∃ rest, retrieveAll [(l, J), (l, -J)] (makeQuantumNumbers (1 / 2) I lmax) =
      .ok ([⟨l, I + 1 / 2, J, (-1) ^ l⟩, ⟨l, I - 1 / 2, J, (-1) ^ l⟩], rest)) := by
  set lo : QuantumNumbers := ⟨l, I - 1 / 2, J, (-1) ^ l⟩ with hlo
  set hi : QuantumNumbers := ⟨l, I + 1 / 2, J, (-1) ^ l⟩ with hhi
  set av := makeQuantumNumbers (1 / 2) I lmax with hav
  have hhalf : HalfInt (1 / 2) := ⟨1, by norm_num⟩
  obtain ⟨hmem, hnd, hsort⟩ := C05_enumeration (1 / 2) I hhalf hI lmax
  obtain ⟨b, hb⟩ := hI
  have cl : Couples (1 / 2) I (I - 1 / 2) := by
    refine ⟨?_, by linarith, b, ?_⟩
    · rw [abs_le]; constructor <;> linarith
    · rw [hb]; push_cast; ring
  have ch : Couples (1 / 2) I (I + 1 / 2) := by
    refine ⟨?_, by linarith, b + 1, ?_⟩
    · rw [abs_le]; constructor <;> linarith
    · rw [hb]; push_cast; ring
  have mlo : lo ∈ av := (hmem lo).mpr ⟨hl, cl, hlow, rfl⟩
  have mhi : hi ∈ av := (hmem hi).mpr ⟨hl, ch, hhigh, rfl⟩
  have hne : lo ≠ hi := by
    intro h
    have : I - 1 / 2 = I + 1 / 2 := congrArg QuantumNumbers.s h
    linarith
  -- channel spins of a neutron
  have only : ∀ s, Couples (1 / 2) I s → s = I - 1 / 2 ∨ s = I + 1 / 2 := by
    rintro s ⟨h1, h2, k, hk⟩
    rw [abs_le] at h1
    have hz : s - (I - 1 / 2) = ((k - b : ℤ) : ℚ) := by push_cast; linarith
    have h0 : (0 : ℚ) ≤ ((k - b : ℤ) : ℚ) := by rw [← hz]; linarith
    have h1 : ((k - b : ℤ) : ℚ) ≤ ((1 : ℤ) : ℚ) := by rw [← hz]; push_cast; linarith
    have h0' : 0 ≤ k - b := by exact_mod_cast h0
    have h1' : k - b ≤ 1 := by exact_mod_cast h1
    have : k - b = 0 ∨ k - b = 1 := by omega
    rcases this with h | h
    · left; rw [h] at hz; push_cast at hz; linarith
    · right; rw [h] at hz; push_cast at hz; linarith
  -- the filtered list
  have filt : ∀ j : ℚ, |j| = J → av.filter (fun n => n.l == l && n.J == |j|) = [lo, hi] := by
    intro j hj
    have hp : (av.filter (fun n => n.l == l && n.J == |j|)).Perm [lo, hi] := by
      rw [List.perm_ext_iff_of_nodup (hnd.filter _) (by simp [hne])]
      intro q
      rw [List.mem_filter, hmem]
      simp only [Bool.and_eq_true, beq_iff_eq, List.mem_cons, List.not_mem_nil, or_false]
      constructor
      · rintro ⟨⟨-, h2, -, h4⟩, h5, h6⟩
        obtain ⟨ql, qs, qJ, qp⟩ := q
        simp only at h2 h4 h5 h6
        subst h5
        rw [hj] at h6
        subst h6
        rcases only qs h2 with h | h
        · left; rw [hlo, h, h4]
        · right; rw [hhi, h, h4]
      · rintro (rfl | rfl)
        · exact ⟨⟨hl, cl, hlow, rfl⟩, rfl, hj.symm⟩
        · exact ⟨⟨hl, ch, hhigh, rfl⟩, rfl, hj.symm⟩
    refine hp.eq_of_pairwise (le := QNLt) ?_ (List.Pairwise.filter _ hsort) ?_
    · intro p q _ _ hpq hqp
      exfalso
      rcases hpq with h | ⟨h, h' | ⟨h', h''⟩⟩ <;> rcases hqp with g | ⟨g, g' | ⟨g', g''⟩⟩ <;>
        first | omega | linarith
    · simp only [List.pairwise_cons, List.mem_singleton, forall_eq, List.not_mem_nil,
        false_implies, implies_true, List.Pairwise.nil, and_true]
      exact Or.inr ⟨rfl, Or.inl (by show I - 1 / 2 < I + 1 / 2; linarith)⟩
  have absn : |(-J)| = J := by rw [abs_neg, abs_of_pos hJ]
  have absp : |J| = J := abs_of_pos hJ
  -- what is left after removing one of the two
  have filt_erase : ∀ j : ℚ, |j| = J → ∀ a c, [lo, hi] = [a, c] ∨ [lo, hi] = [c, a] →
      (av.erase a).filter (fun n => n.l == l && n.J == |j|) = [c] := by
    intro j hj a c hac
    have hperm : ((av.erase a).filter (fun n => n.l == l && n.J == |j|)).Perm [c] := by
      rw [hnd.erase_eq_filter, List.filter_filter]
      have : (av.filter fun n => (n.l == l && n.J == |j|) && (n != a)) =
          ([lo, hi] : List QuantumNumbers).filter (fun n => n != a) := by
        rw [← filt j hj, List.filter_filter]
        congr 1; funext n; exact Bool.and_comm _ _
      rw [this]
      rcases hac with h | h
      · simp only [List.cons.injEq, and_true] at h
        obtain ⟨rfl, rfl⟩ := h
        simp [hne.symm]
      · simp only [List.cons.injEq, and_true] at h
        obtain ⟨rfl, rfl⟩ := h
        simp [hne]
    exact List.perm_singleton.mp hperm
  constructor
  · refine ⟨(av.erase lo).erase hi, ?_⟩
    have r1 : retrieveQuantumNumber l (-J) av = .ok (lo, av.erase lo) := by
      unfold retrieveQuantumNumber
      rw [filt (-J) absn]
      simp [hJ]
    have r2 : retrieveQuantumNumber l J (av.erase lo) = .ok (hi, (av.erase lo).erase hi) := by
      unfold retrieveQuantumNumber
      rw [filt_erase J absp lo hi (Or.inl rfl)]
    simp only [retrieveAll, r1, r2]
  · refine ⟨(av.erase hi).erase lo, ?_⟩
    have r1 : retrieveQuantumNumber l J av = .ok (hi, av.erase hi) := by
      unfold retrieveQuantumNumber
      rw [filt J absp]
      simp [not_lt.mpr hJ.le]
    have r2 : retrieveQuantumNumber l (-J) (av.erase hi) = .ok (lo, (av.erase hi).erase lo) := by
      unfold retrieveQuantumNumber
      rw [filt_erase (-J) absn hi lo (Or.inr rfl)]
    simp only [retrieveAll, r1, r2]

/-- Spin 7/2 target, `l = 1`, `J = 3`: both channel spins 3 and 4 are possible. -/
example : Couples ((1 : ℕ) : ℚ) (7 / 2 - 1 / 2) 3 ∧ Couples ((1 : ℕ) : ℚ) (7 / 2 + 1 / 2) 3 := by
  refine ⟨⟨?_, by norm_num, 7, by norm_num⟩, ⟨?_, by norm_num, 8, by norm_num⟩⟩
  · norm_num [abs_le]
  · norm_num [abs_le]

end Verif
