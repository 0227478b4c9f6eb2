import Verif.Lemmas.ReichMoore

/-!
# When a Reich-Moore evaluation is accepted
-/

namespace Verif

open Spec

theorem two_le_countP {α : Type*} [DecidableEq α] {p : α → Bool} {l : List α} (hn : l.Nodup) :
    2 ≤ l.countP p ↔ ∃ a ∈ l, ∃ b ∈ l, a ≠ b ∧ p a = true ∧ p b = true := by
  rw [List.countP_eq_length_filter]
  constructor
  · intro h
    have hn' := hn.filter p
    have hm : ∀ x, x ∈ l.filter p ↔ x ∈ l ∧ p x = true := fun x => List.mem_filter
    match hf : l.filter p with
    | [] => simp [hf] at h
    | [a] => simp [hf] at h
    | a :: b :: rest =>
      rw [hf] at hm hn'
      have ha := (hm a).mp (by simp)
      have hb := (hm b).mp (by simp)
      refine ⟨a, ha.1, b, hb.1, ?_, ha.2, hb.2⟩
      rintro rfl
      simp at hn'
  · rintro ⟨a, ha, b, hb, hne, hpa, hpb⟩
    have hsub : [a, b] ⊆ l.filter p := by
      intro x hx
      simp only [List.mem_cons, List.not_mem_nil, or_false] at hx
      rcases hx with rfl | rfl
      · exact List.mem_filter.mpr ⟨ha, hpa⟩
      · exact List.mem_filter.mpr ⟨hb, hpb⟩
    exact ((List.Nodup.subperm (by simp [hne]) hsub).length_le : [a, b].length ≤ _)

theorem makeQuantumNumbers_count (I : ℚ) (hI : HalfInt I) (lmax l : ℕ) (j : ℚ) :
    (1 ≤ (makeQuantumNumbers (1 / 2) I lmax).countP (fun q => q.l = l ∧ q.J = j) ↔
      l < lmax ∧ ∃ s, Couples (1 / 2) I s ∧ Couples l s j) ∧
    (2 ≤ (makeQuantumNumbers (1 / 2) I lmax).countP (fun q => q.l = l ∧ q.J = j) ↔
      l < lmax ∧ ∃ s s', s ≠ s' ∧ (Couples (1 / 2) I s ∧ Couples l s j) ∧
        Couples (1 / 2) I s' ∧ Couples l s' j) := by
  obtain ⟨hm, hn, -⟩ := C05_enumeration (1 / 2) I ⟨1, by norm_num⟩ hI lmax
  constructor
  · rw [Nat.one_le_iff_ne_zero, ← Nat.pos_iff_ne_zero, List.countP_pos_iff]
    constructor
    · rintro ⟨q, hq, hp⟩
      obtain ⟨h1, h2, h3, -⟩ := (hm q).mp hq
      obtain ⟨rfl, rfl⟩ := of_decide_eq_true hp
      exact ⟨h1, _, h2, h3⟩
    · rintro ⟨h, s, h1, h2⟩
      exact ⟨⟨l, s, j, (-1) ^ l⟩, (hm _).mpr ⟨h, h1, h2, rfl⟩, by simp⟩
  · rw [two_le_countP hn]
    constructor
    · rintro ⟨q, hq, r, hr, hne, hp, hp'⟩
      obtain ⟨h1, h2, h3, h4⟩ := (hm q).mp hq
      obtain ⟨k1, k2, k3, k4⟩ := (hm r).mp hr
      obtain ⟨rfl, rfl⟩ := of_decide_eq_true hp
      obtain ⟨e1, e2⟩ := of_decide_eq_true hp'
      refine ⟨h1, q.s, r.s, ?_, ⟨h2, h3⟩, k2, e1 ▸ e2 ▸ k3⟩
      intro hs
      apply hne
      cases q
      cases r
      simp_all
    · rintro ⟨h, s, s', hne, ⟨h1, h2⟩, k1, k2⟩
      refine ⟨⟨l, s, j, (-1) ^ l⟩, (hm _).mpr ⟨h, h1, h2, rfl⟩, ⟨l, s', j, (-1) ^ l⟩,
        (hm _).mpr ⟨h, k1, k2, rfl⟩, ?_, by simp, by simp⟩
      intro e
      exact hne (congrArg QuantumNumbers.s e)

namespace Endf

variable {K : Constants} {lib : CoulombLibrary}

theorem mem_groupsOf {lvalues : List ReichMooreLValue} {x : ReichMooreLValue × ℚ} :
    x ∈ groupsOf lvalues ↔ x.1 ∈ lvalues ∧ ∃ r ∈ x.1.resonances, r.spin = x.2 := by
  obtain ⟨lv, J⟩ := x
  unfold groupsOf
  simp only [List.mem_flatMap, List.mem_map, Prod.mk.injEq, mem_sortUnique]
  constructor
  · rintro ⟨lv', h, J', ⟨r, hr, rfl⟩, rfl, rfl⟩
    exact ⟨h, r, hr, rfl⟩
  · rintro ⟨h, r, hr, rfl⟩
    exact ⟨lv, h, _, ⟨r, hr, rfl⟩, rfl, rfl⟩

theorem groupsOf_nodup {lvalues : List ReichMooreLValue}
    (h : (lvalues.map ReichMooreLValue.l).Nodup) : (groupsOf lvalues).Nodup := by
  unfold groupsOf
  rw [List.nodup_flatMap]
  constructor
  · intro lv _
    refine List.Nodup.map (fun a b hab => (Prod.mk.inj hab).2) ?_
    exact (sortUnique_sorted _).imp fun h => h.ne
  · refine (List.pairwise_map.mp h).imp fun {a b} hab => ?_
    intro x hx hy
    obtain ⟨J, -, rfl⟩ := List.mem_map.mp hx
    obtain ⟨J', -, h'⟩ := List.mem_map.mp hy
    exact hab (by rw [(Prod.mk.inj h').1])

theorem lvalue_eq {lvalues : List ReichMooreLValue} (h : (lvalues.map ReichMooreLValue.l).Nodup)
    {a b : ReichMooreLValue} (ha : a ∈ lvalues) (hb : b ∈ lvalues) (hl : a.l = b.l) : a = b :=
  List.inj_on_of_nodup_map h ha hb hl

/-- The lookups of an evaluation succeed exactly if its spins can be coupled. -/
theorem retrieveAll_groupsOf {lvalues : List ReichMooreLValue} {I : ℚ} {nlsc : ℕ} (hI : HalfInt I)
    (hn : (lvalues.map ReichMooreLValue.l).Nodup) :
    (∃ r, retrieveAll ((groupsOf lvalues).map fun x => (x.1.l, x.2)) (makeQuantumNumbers (1 / 2) I nlsc)
      = .ok r) ↔
    ∀ lv ∈ lvalues, (∀ r ∈ lv.resonances, lv.l < nlsc ∧ ∃ s, Couples (1 / 2) I s ∧ Couples lv.l s |r.spin|) ∧
      ∀ r ∈ lv.resonances, ∀ r' ∈ lv.resonances, r.spin ≠ 0 → r'.spin = -r.spin →
        ∃ s s', s ≠ s' ∧ (Couples (1 / 2) I s ∧ Couples lv.l s |r.spin|) ∧
          Couples (1 / 2) I s' ∧ Couples lv.l s' |r.spin| := by
  classical
  rw [retrieveAll_exists]
  have hG := groupsOf_nodup hn
  have one : ∀ l j, 1 ≤ ((groupsOf lvalues).map fun x => (x.1.l, x.2)).countP
      (fun r => decide (r.1 = l ∧ |r.2| = j)) ↔
      ∃ lv ∈ lvalues, lv.l = l ∧ ∃ r ∈ lv.resonances, |r.spin| = j := by
    intro l j
    rw [List.countP_map, Nat.one_le_iff_ne_zero, ← Nat.pos_iff_ne_zero, List.countP_pos_iff]
    constructor
    · rintro ⟨⟨lv, J⟩, hx, hp⟩
      obtain ⟨h1, r, hr, hJ⟩ := mem_groupsOf.mp hx
      simp only [Function.comp_apply, decide_eq_true_eq] at hp hJ
      exact ⟨lv, h1, hp.1, r, hr, by rw [hJ]; exact hp.2⟩
    · rintro ⟨lv, h1, h2, r, hr, hj⟩
      exact ⟨(lv, r.spin), mem_groupsOf.mpr ⟨h1, r, hr, rfl⟩, by simp [h2, hj]⟩
  have two : ∀ l j, 2 ≤ ((groupsOf lvalues).map fun x => (x.1.l, x.2)).countP
      (fun r => decide (r.1 = l ∧ |r.2| = j)) ↔
      ∃ lv ∈ lvalues, lv.l = l ∧ ∃ r ∈ lv.resonances, |r.spin| = j ∧ r.spin ≠ 0 ∧
        ∃ r' ∈ lv.resonances, r'.spin = -r.spin := by
    intro l j
    rw [List.countP_map, two_le_countP hG]
    constructor
    · rintro ⟨⟨lv, J⟩, hx, ⟨lv', J'⟩, hx', hne, hp, hp'⟩
      obtain ⟨h1, r, hr, hJ⟩ := mem_groupsOf.mp hx
      obtain ⟨h1', r', hr', hJ'⟩ := mem_groupsOf.mp hx'
      simp only [Function.comp_apply, decide_eq_true_eq] at hp hJ hp' hJ' h1 h1' hr hr'
      obtain rfl := lvalue_eq hn h1 h1' (by rw [hp.1, hp'.1])
      have hJJ : J ≠ J' := fun h => hne (by rw [h])
      have habs : |J'| = |J| := by rw [hp.2, hp'.2]
      have hneg : J' = -J := by
        rcases abs_eq_abs.mp habs with h | h
        · exact absurd h.symm hJJ
        · exact h
      refine ⟨lv, h1, hp.1, r, hr, by rw [hJ]; exact hp.2, ?_, r', hr', by rw [hJ, hJ', hneg]⟩
      rw [hJ]
      rintro rfl
      exact hJJ (by rw [hneg, neg_zero])
    · rintro ⟨lv, h1, h2, r, hr, hj, h0, r', hr', hneg⟩
      refine ⟨(lv, r.spin), mem_groupsOf.mpr ⟨h1, r, hr, rfl⟩, (lv, r'.spin),
        mem_groupsOf.mpr ⟨h1, r', hr', rfl⟩, ?_, by simp [h2, hj], by simp [h2, hneg, hj]⟩
      intro h
      have := (Prod.mk.inj h).2
      rw [hneg] at this
      exact h0 (by linarith)
  have three : ∀ l j, ((groupsOf lvalues).map fun x => (x.1.l, x.2)).countP
      (fun r => decide (r.1 = l ∧ |r.2| = j)) ≤ 2 := by
    intro l j
    rw [List.countP_map, List.countP_eq_length_filter]
    have hf := hG.filter ((fun r : ℕ × ℚ => decide (r.1 = l ∧ |r.2| = j)) ∘
      fun x : ReichMooreLValue × ℚ => (x.1.l, x.2))
    match hm : (groupsOf lvalues).filter ((fun r : ℕ × ℚ => decide (r.1 = l ∧ |r.2| = j)) ∘
      fun x : ReichMooreLValue × ℚ => (x.1.l, x.2)) with
    | [] => simp
    | (lv, J) :: rest =>
      have hmem : ∀ x ∈ (lv, J) :: rest, x.1 ∈ lvalues ∧ x.1.l = l ∧ |x.2| = j := by
        intro x hx
        rw [← hm, List.mem_filter] at hx
        refine ⟨(mem_groupsOf.mp hx.1).1, ?_⟩
        simpa using hx.2
      rw [hm] at hf
      have hsub : (lv, J) :: rest ⊆ [(lv, j), (lv, -j)] := by
        intro x hx
        obtain ⟨a1, a2, a3⟩ := hmem x hx
        obtain ⟨b1, b2, b3⟩ := hmem _ List.mem_cons_self
        obtain ⟨lv', J'⟩ := x
        simp only at a1 a2 a3 b1 b2 b3
        obtain rfl := lvalue_eq hn a1 b1 (by rw [a2, b2])
        rcases (abs_eq (a3 ▸ abs_nonneg J')).mp a3 with rfl | rfl <;> simp
      exact (hf.subperm hsub).length_le
  have split : ∀ m n : ℕ, m ≤ 2 → (m ≤ n ↔ (1 ≤ m → 1 ≤ n) ∧ (2 ≤ m → 2 ≤ n)) := by
    intro m n hm
    omega
  have key : ∀ l j, ((groupsOf lvalues).map fun x => (x.1.l, x.2)).countP
      (fun r => decide (r.1 = l ∧ |r.2| = j)) ≤ (makeQuantumNumbers (1 / 2) I nlsc).countP
        (fun q => decide (q.l = l ∧ q.J = j)) ↔ _ := fun l j => split _ _ (three l j)
  constructor
  · intro h lv hlv
    constructor
    · intro r hr
      exact (makeQuantumNumbers_count I hI nlsc _ _).1.mp (((key _ _).mp (h lv.l |r.spin|)).1
        ((one _ _).mpr ⟨lv, hlv, rfl, r, hr, rfl⟩))
    · intro r hr r' hr' h0 hneg
      exact ((makeQuantumNumbers_count I hI nlsc _ _).2.mp (((key _ _).mp (h lv.l |r.spin|)).2
        ((two _ _).mpr ⟨lv, hlv, rfl, r, hr, rfl, h0, r', hr', hneg⟩))).2
  · intro h l j
    rw [key]
    constructor
    · intro h1
      obtain ⟨lv, hlv, rfl, r, hr, rfl⟩ := (one _ _).mp h1
      exact (makeQuantumNumbers_count I hI nlsc _ _).1.mpr ((h lv hlv).1 r hr)
    · intro h1
      obtain ⟨lv, hlv, rfl, r, hr, rfl, h0, r', hr', hneg⟩ := (two _ _).mp h1
      exact (makeQuantumNumbers_count I hI nlsc _ _).2.mpr
        ⟨((h lv hlv).1 r hr).1, (h lv hlv).2 r hr r' hr' h0 hneg⟩

/-- There are fission widths for one l and J. -/
def HasFission (lvalue : ReichMooreLValue) (J : ℚ) : Prop :=
  ∃ r ∈ lvalue.resonances, r.spin = J ∧ (r.firstFissionWidth ≠ 0 ∨ r.secondFissionWidth ≠ 0)

theorem isAllZero_iff {values : List ℝ} : isAllZero values = true ↔ ∀ x ∈ values, x = 0 := by
  unfold isAllZero
  have h : ∀ (l : List Bool) (b : Bool), l.foldl (fun left right => left && right) b = true ↔
      b = true ∧ ∀ x ∈ l, x = true := by
    intro l
    induction l with
    | nil => simp
    | cons a l ih =>
      intro b
      rw [List.foldl_cons, ih]
      simp [and_assoc]
  rw [h]
  simp

/-- The first part of the identifiers of the fission channels of a block. -/
noncomputable def fissionNames (lvalue : ReichMooreLValue) (J : ℚ) : List Str :=
  let current := lvalue.resonances.filter fun r => r.spin == J
  (if isAllZero (current.map ReichMooreResonance.firstFissionWidth) then [] else ["fission1".toList]) ++
    if isAllZero (current.map ReichMooreResonance.secondFissionWidth) then []
    else [if isAllZero (current.map ReichMooreResonance.firstFissionWidth) then "fission1".toList
      else "fission2".toList]

theorem fissionNames_nodup (lvalue : ReichMooreLValue) (J : ℚ) : (fissionNames lvalue J).Nodup := by
  unfold fissionNames
  simp only
  split <;> split <;> simp

theorem fissionNames_comma {lvalue : ReichMooreLValue} {J : ℚ} {name : Str}
    (h : name ∈ fissionNames lvalue J) : ',' ∉ name := by
  unfold fissionNames at h
  simp only at h
  have h1 : ',' ∉ "fission1".toList := by decide
  have h2 : ',' ∉ "fission2".toList := by decide
  split at h <;> split at h <;> simp only [List.append_nil, List.nil_append, List.mem_append,
    List.mem_cons, List.not_mem_nil, or_false] at h
  · subst h; exact h1
  · subst h; exact h1
  · rcases h with rfl | rfl
    · exact h1
    · exact h2

theorem fissionNames_cases {lvalue : ReichMooreLValue} {J : ℚ} :
    (HasFission lvalue J → "fission1".toList ∈ fissionNames lvalue J) ∧
      (¬ HasFission lvalue J → fissionNames lvalue J = []) := by
  unfold fissionNames HasFission
  simp only
  constructor
  · rintro ⟨r, hr, hJ, h | h⟩
    · have h1 : ¬ isAllZero ((lvalue.resonances.filter fun r => r.spin == J).map
          ReichMooreResonance.firstFissionWidth) = true := by
        rw [isAllZero_iff]
        intro h'
        exact h (h' _ (List.mem_map_of_mem (List.mem_filter.mpr ⟨hr, by simpa using hJ⟩)))
      rw [if_neg h1]
      exact List.mem_append_left _ (List.mem_singleton.mpr rfl)
    · have h2 : ¬ isAllZero ((lvalue.resonances.filter fun r => r.spin == J).map
          ReichMooreResonance.secondFissionWidth) = true := by
        rw [isAllZero_iff]
        intro h'
        exact h (h' _ (List.mem_map_of_mem (List.mem_filter.mpr ⟨hr, by simpa using hJ⟩)))
      rw [if_neg h2]
      split
      · exact List.mem_append_right _ (List.mem_singleton.mpr rfl)
      · exact List.mem_append_left _ (List.mem_singleton.mpr rfl)
  · intro h
    have h1 : isAllZero ((lvalue.resonances.filter fun r => r.spin == J).map
          ReichMooreResonance.firstFissionWidth) = true := by
      rw [isAllZero_iff]
      intro x hx
      obtain ⟨r, hr, rfl⟩ := List.mem_map.mp hx
      by_contra h0
      exact h ⟨r, (List.mem_filter.mp hr).1, by simpa using (List.mem_filter.mp hr).2, Or.inl h0⟩
    have h2 : isAllZero ((lvalue.resonances.filter fun r => r.spin == J).map
          ReichMooreResonance.secondFissionWidth) = true := by
      rw [isAllZero_iff]
      intro x hx
      obtain ⟨r, hr, rfl⟩ := List.mem_map.mp hx
      by_contra h0
      exact h ⟨r, (List.mem_filter.mp hr).1, by simpa using (List.mem_filter.mp hr).2, Or.inr h0⟩
    rw [if_pos h1, if_pos h2]
    rfl

/-- The quantum numbers of a block are those that were asked for. -/
structure Block.Numbered (b : Block) : Prop where
  l : b.numbers.l = b.lvalue.l
  J : b.numbers.J = |b.J|
  parity : b.numbers.parity = (-1) ^ b.lvalue.l
  physical : Physical b.numbers

theorem otherNumbers_physical {l : ℕ} {J : ℚ} (h : HalfInt |J|) : Physical (otherNumbers l J) :=
  ⟨⟨0, by simp [otherNumbers]⟩, h⟩

theorem Block.Valid.pair_id {neutronMass : ℝ} {incident target : Str}
    {spin : ℚ} {ap : ℝ} {nro : Option (ℝ → Outcome ℝ)} {naps : ℤ} {b : Block}
    (h : b.Valid K lib neutronMass incident target spin ap nro naps) : b.pair.id = pairID incident target := by
  rw [(incidentPair_ok h.pair).2.2.2]

theorem Block.Valid.channels {neutronMass : ℝ} {incident target : Str}
    {spin : ℚ} {ap : ℝ} {nro : Option (ℝ → Outcome ℝ)} {naps : ℤ} {b : Block}
    (h : b.Valid K lib neutronMass incident target spin ap nro naps) (hn : b.Numbered) :
    (∀ d ∈ b.data, d.channel.incident.id = pairID incident target ∧ d.channel.numbers.J = |b.J| ∧
      d.channel.numbers.parity = (-1) ^ b.lvalue.l ∧ Physical d.channel.numbers ∧
      (∃ name, d.channel.id = makeChannelID name d.channel.numbers) ∧
      d.energies.length = d.widths.length) ∧
    (∃ d ∈ b.data, d.eliminated = false ∧ d.channel.pair.id = d.channel.incident.id) ∧
    ((b.data.filter fun d => ¬ d.eliminated).map fun d => d.channel.id)
      = makeChannelID (pairID incident target) b.numbers ::
        (fissionNames b.lvalue b.J).map fun name => makeChannelID name (otherNumbers b.lvalue.l b.J) := by
  have hid := h.pair_id
  obtain ⟨rw, hrw, hdata⟩ := reichMooreData_ok.mp h.data
  have hlen := mapM_length hrw
  have hphys := otherNumbers_physical (l := b.lvalue.l) (hn.J ▸ hn.physical.2)
  refine ⟨?_, ?_, ?_⟩
  · intro d hd
    rw [hdata] at hd
    have key : ∀ (t : Bool) (x : ChannelData), (x.channel.incident.id = pairID incident target ∧
        x.channel.numbers.J = |b.J| ∧ x.channel.numbers.parity = (-1) ^ b.lvalue.l ∧
        Physical x.channel.numbers ∧ (∃ name, x.channel.id = makeChannelID name x.channel.numbers) ∧
        x.energies.length = x.widths.length) →
        d ∈ (if t then [] else [x]) → d.channel.incident.id = pairID incident target ∧
          d.channel.numbers.J = |b.J| ∧ d.channel.numbers.parity = (-1) ^ b.lvalue.l ∧
          Physical d.channel.numbers ∧ (∃ name, d.channel.id = makeChannelID name d.channel.numbers) ∧
          d.energies.length = d.widths.length := by
      intro t x hx hd
      cases t
      · rw [List.mem_singleton.mp hd]
        exact hx
      · cases hd
    rcases List.mem_append.mp hd with hd | hd
    · rcases List.mem_append.mp hd with hd | hd
      · rcases List.mem_cons.mp hd with rfl | hd
        · exact ⟨hid, hn.J, hn.parity, hn.physical, ⟨_, rfl⟩, by simp [hlen]⟩
        · rw [List.mem_singleton.mp hd]
          exact ⟨hid, rfl, parityOfL_eq _, hphys, ⟨_, rfl⟩, by simp⟩
      · exact key _ _ ⟨hid, rfl, parityOfL_eq _, hphys, ⟨_, rfl⟩, by simp⟩ hd
    · exact key _ _ ⟨hid, rfl, parityOfL_eq _, hphys, ⟨_, rfl⟩, by simp⟩ hd
  · rw [hdata]
    exact ⟨_, List.mem_append_left _ (List.mem_append_left _ List.mem_cons_self), rfl, rfl⟩
  · rw [hdata]
    unfold fissionNames
    simp only
    cases isAllZero ((b.lvalue.resonances.filter fun r => r.spin == b.J).map
        ReichMooreResonance.firstFissionWidth) <;>
      cases isAllZero ((b.lvalue.resonances.filter fun r => r.spin == b.J).map
        ReichMooreResonance.secondFissionWidth) <;>
      simp [elasticChannel, fissionChannel, plainChannel, makeChannel, hid]

/-- The identifiers of all channels that are kept. -/
theorem kept_ids {neutronMass : ℝ} {incident target : Str}
    {spin : ℚ} {ap : ℝ} {nro : Option (ℝ → Outcome ℝ)} {naps : ℤ} {blocks : List Block}
    {pair : ParticlePair} {radii : ChannelRadii} {remaining : List QuantumNumbers}
    (hp : pair.id = pairID incident target)
    (h : ∀ b ∈ blocks, b.Valid K lib neutronMass incident target spin ap nro naps)
    (hn : ∀ b ∈ blocks, b.Numbered) :
    (((blocks.flatMap Block.data ++ remaining.map (emptyElastic pair radii)).filter
      fun d => ¬ d.eliminated).map fun d => d.channel.id).Perm
      ((blocks.map Block.numbers ++ remaining).map (makeChannelID (pairID incident target)) ++
        blocks.flatMap fun b => (fissionNames b.lvalue b.J).map fun name =>
          makeChannelID name (otherNumbers b.lvalue.l b.J)) := by
  rw [List.filter_append, List.map_append]
  have h1 : ((remaining.map (emptyElastic pair radii)).filter fun d => ¬ d.eliminated).map
      (fun d => d.channel.id) = remaining.map (makeChannelID (pairID incident target)) := by
    rw [List.filter_eq_self.mpr, List.map_map]
    · apply List.map_congr_left
      intro n _
      simp [emptyElastic, plainChannel, makeChannel, hp]
    · intro d hd
      obtain ⟨n, -, rfl⟩ := List.mem_map.mp hd
      simp [emptyElastic]
  have h2 : ((blocks.flatMap Block.data).filter fun d => ¬ d.eliminated).map (fun d => d.channel.id)
      = blocks.flatMap fun b => [makeChannelID (pairID incident target) b.numbers] ++
        (fissionNames b.lvalue b.J).map fun name => makeChannelID name (otherNumbers b.lvalue.l b.J) := by
    clear h1
    induction blocks with
    | nil => rfl
    | cons b blocks ih =>
      rw [List.flatMap_cons, List.flatMap_cons, List.filter_append, List.map_append,
        ((h b List.mem_cons_self).channels (hn b List.mem_cons_self)).2.2,
        ih (fun c hc => h c (List.mem_cons_of_mem _ hc)) fun c hc => hn c (List.mem_cons_of_mem _ hc)]
      rfl
  rw [h1, h2, List.map_append]
  refine ((List.flatMap_append_perm _ _ _).symm.append_right _).trans ?_
  rw [← List.map_eq_flatMap, List.map_map, List.append_assoc, List.append_assoc]
  exact List.Perm.append_left _ List.perm_append_comm

theorem fission_nodup {lvalues : List ReichMooreLValue} {blocks : List Block}
    (hl : (lvalues.map ReichMooreLValue.l).Nodup)
    (hg : blocks.map (fun b => (b.lvalue, b.J)) = groupsOf lvalues) (hn : ∀ b ∈ blocks, b.Numbered) :
    (blocks.flatMap fun b => (fissionNames b.lvalue b.J).map fun name =>
      makeChannelID name (otherNumbers b.lvalue.l b.J)).Nodup ↔
    ∀ lv ∈ lvalues, ∀ J, J ≠ 0 → ¬ (HasFission lv J ∧ HasFission lv (-J)) := by
  classical
  have hmem : ∀ lv ∈ lvalues, ∀ J, HasFission lv J → (lv, J) ∈ groupsOf lvalues := by
    rintro lv hlv J ⟨r, hr, hJ, -⟩
    exact mem_groupsOf.mpr ⟨hlv, r, hr, hJ⟩
  have hphys : ∀ b ∈ blocks, Physical (otherNumbers b.lvalue.l b.J) := fun b hb =>
    otherNumbers_physical ((hn b hb).J ▸ (hn b hb).physical.2)
  have hinj : ∀ b ∈ blocks, ∀ c ∈ blocks, ∀ x y : Str,
      makeChannelID x (otherNumbers b.lvalue.l b.J) = makeChannelID y (otherNumbers c.lvalue.l c.J) ↔
        x = y ∧ b.lvalue.l = c.lvalue.l ∧ |b.J| = |c.J| := by
    intro b hb c hc x y
    rw [C07_channelID_injective _ _ _ _ (hphys b hb) (hphys c hc)]
    simp only [otherNumbers]
    constructor
    · rintro ⟨h1, h2, -, h3, -⟩
      exact ⟨h1, h2, h3⟩
    · rintro ⟨h1, h2, h3⟩
      exact ⟨h1, h2, trivial, h3, by rw [h2]⟩
  have hblock : ∀ x ∈ groupsOf lvalues, ∃ b ∈ blocks, (b.lvalue, b.J) = x := by
    intro x hx
    rw [← hg] at hx
    obtain ⟨b, hb, h⟩ := List.mem_map.mp hx
    exact ⟨b, hb, h⟩
  have hin : ∀ b ∈ blocks, b.lvalue ∈ lvalues := by
    intro b hb
    have : (b.lvalue, b.J) ∈ groupsOf lvalues := hg ▸ List.mem_map_of_mem hb
    exact (mem_groupsOf.mp this).1
  have hnd : blocks.Pairwise fun b c => (b.lvalue, b.J) ≠ (c.lvalue, c.J) :=
    List.pairwise_map.mp (hg ▸ groupsOf_nodup hl)
  rw [List.nodup_flatMap]
  constructor
  · rintro ⟨-, hp⟩ lv hlv J hJ ⟨h1, h2⟩
    obtain ⟨b, hb, eb⟩ := hblock _ (hmem lv hlv J h1)
    obtain ⟨c, hc, ec⟩ := hblock _ (hmem lv hlv (-J) h2)
    have hbc : b ≠ c := by
      rintro rfl
      rw [eb] at ec
      have := (Prod.mk.inj ec).2
      exact hJ (by linarith)
    have : Std.Symm (Function.onFun List.Disjoint fun b : Block =>
        (fissionNames b.lvalue b.J).map fun name => makeChannelID name (otherNumbers b.lvalue.l b.J)) :=
      ⟨fun _ _ h => List.Disjoint.symm h⟩
    have hd := hp.forall hb hc hbc
    obtain ⟨e1, e2⟩ := Prod.mk.inj eb
    obtain ⟨e3, e4⟩ := Prod.mk.inj ec
    refine hd (List.mem_map_of_mem (fissionNames_cases.1 (by rw [e1, e2]; exact h1))) ?_
    rw [(hinj b hb c hc _ _).mpr ⟨rfl, by rw [e1, e3], by rw [e2, e4, abs_neg]⟩]
    exact List.mem_map_of_mem (fissionNames_cases.1 (by rw [e3, e4]; exact h2))
  · intro h
    constructor
    · intro b hb
      refine List.Nodup.map_on ?_ (fissionNames_nodup _ _)
      intro x _ y _ hxy
      exact ((hinj b hb b hb x y).mp hxy).1
    · refine List.Pairwise.imp_of_mem ?_ hnd
      intro b c hb hc hne x hx hy
      obtain ⟨name, hname, rfl⟩ := List.mem_map.mp hx
      obtain ⟨name', hname', he⟩ := List.mem_map.mp hy
      obtain ⟨-, e1, e2⟩ := (hinj c hc b hb _ _).mp he
      have hf : HasFission b.lvalue b.J := by
        by_contra hf
        rw [fissionNames_cases.2 hf] at hname
        cases hname
      have hf' : HasFission c.lvalue c.J := by
        by_contra hf'
        rw [fissionNames_cases.2 hf'] at hname'
        cases hname'
      have elv : c.lvalue = b.lvalue := lvalue_eq hl (hin c hc) (hin b hb) e1
      rcases abs_eq_abs.mp e2 with e | e
      · exact hne (by rw [elv, e])
      · have h0 : b.J ≠ 0 := by
          intro h0
          exact hne (by rw [elv, e, h0, neg_zero])
        exact h b.lvalue (hin b hb) b.J h0 ⟨hf, by rw [← e, ← elv]; exact hf'⟩

theorem sublist_of_eq {α : Type*} {a b : List α} (h : a = b) : a.Sublist b := h ▸ List.Sublist.refl _

/-- A consolidated list of channels makes a compound system exactly if the identifiers of the channels
that are kept are different. -/
theorem consolidated_accepted (initial : (g : SpinGroup) → MatrixCache g.channels.length)
    {all consolidated : List ChannelData} {id : PairID}
    (hlen : ∀ d ∈ all, d.energies.length = d.widths.length)
    (hinc : ∀ d ∈ all, d.channel.incident.id = id)
    (hel : ∀ d ∈ all, ∃ e ∈ all, e.eliminated = false ∧ e.channel.pair.id = e.channel.incident.id ∧
      e.channel.numbers.J = d.channel.numbers.J ∧ e.channel.numbers.parity = d.channel.numbers.parity)
    (hids : ∀ d ∈ all, ∀ e ∈ all, d.channel.id = e.channel.id →
      d.channel.numbers.J = e.channel.numbers.J ∧ d.channel.numbers.parity = e.channel.numbers.parity)
    (hc : consolidateChannelData all = .ok consolidated) :
    (∃ s, makeCompoundSystemFromData initial consolidated = .ok s) ↔
      all ≠ [] ∧ ((all.filter fun d => ¬ d.eliminated).map fun d => d.channel.id).Nodup := by
  obtain ⟨merged, h1, h2, h3, h4, h5⟩ := C28_consolidation all hlen
  rw [h1] at hc
  obtain rfl := Except.ok.inj hc
  set kept := all.filter (fun d => ¬ d.eliminated) with hkept
  have hk : ∀ d, d ∈ kept ↔ d ∈ all ∧ d.eliminated = false := by
    intro d
    rw [hkept, List.mem_filter]
    simp
  clear_value kept
  have hlen' : ∀ d ∈ kept ++ merged, d.energies.length = d.widths.length := by
    intro d hd
    rcases List.mem_append.mp hd with hd | hd
    · exact hlen d ((hk d).mp hd).1
    · obtain ⟨-, e1, e2⟩ := h5 d hd
      rw [e1, e2, List.length_flatMap, List.length_flatMap]
      congr 1
      apply List.map_congr_left
      intro a ha
      exact hlen a (List.mem_filter.mp ha).1
  have hel' : ∀ d ∈ kept ++ merged, ∃ e ∈ kept, e.channel.pair.id = e.channel.incident.id ∧
      e.channel.numbers.J = d.channel.numbers.J ∧
        e.channel.numbers.parity = d.channel.numbers.parity := by
    intro d hd
    rcases List.mem_append.mp hd with hd | hd
    · obtain ⟨e, he, k1, k2, k3⟩ := hel d ((hk d).mp hd).1
      exact ⟨e, (hk e).mpr ⟨he, k1⟩, k2, k3⟩
    · obtain ⟨⟨first, hf, -, hch, -⟩, -⟩ := h5 d hd
      obtain ⟨e, he, k1, k2, k3⟩ := hel first hf
      exact ⟨e, (hk e).mpr ⟨he, k1⟩, k2, by rw [← hch]; exact k3⟩
  have hfk : ∀ d ∈ kept ++ merged, d.eliminated = false → d ∈ kept := by
    intro d hd he
    rcases List.mem_append.mp hd with hd | hd
    · exact hd
    · rw [h2 d hd] at he
      cases he
  rw [C25_accepted initial _ hlen']
  have hne : kept ++ merged ≠ [] ↔ all ≠ [] := by
    constructor
    · rintro h rfl
      apply h
      have hk0 : kept = [] := by rw [hkept]; rfl
      rw [hk0, List.nil_append, List.eq_nil_iff_forall_not_mem]
      intro d hd
      obtain ⟨⟨first, hf, -⟩, -⟩ := h5 d hd
      cases hf
    · intro h h'
      obtain ⟨d, hd⟩ := List.exists_mem_of_ne_nil _ h
      obtain ⟨e, he, k1, -⟩ := hel d hd
      have : e ∈ kept ++ merged := List.mem_append_left _ ((hk e).mpr ⟨he, k1⟩)
      rw [h'] at this
      cases this
  rw [hne]
  refine and_congr_right fun _ => ?_
  constructor
  · intro h
    have : kept.Pairwise fun d e => d.channel.id ≠ e.channel.id := by
      refine pairwise_of_filter (key := fun d : ChannelData =>
        (d.channel.numbers.J, d.channel.numbers.parity)) ?_ ?_
      · intro d hd
        have hu := (h d (List.mem_append_left _ hd)).uniqueIDs
        have hsub : (kept.filter fun e => decide ((e.channel.numbers.J, e.channel.numbers.parity)
            = (d.channel.numbers.J, d.channel.numbers.parity))).Sublist
            (((kept ++ merged).filter fun e => decide (e.channel.numbers.J = d.channel.numbers.J ∧
              e.channel.numbers.parity = d.channel.numbers.parity)).filter fun d => ¬ d.eliminated) := by
          rw [List.filter_append, List.filter_append]
          refine List.Sublist.trans ?_ (List.sublist_append_left _ _)
          rw [List.filter_filter]
          apply sublist_of_eq
          apply List.filter_congr
          intro e he
          rw [Bool.eq_iff_iff]
          simp [((hk e).mp he).2]
        exact (List.pairwise_map.mp hu).sublist hsub
      · intro d hd e he hne
        obtain ⟨k1, k2⟩ := hids d ((hk d).mp hd).1 e ((hk e).mp he).1 (not_not.mp hne)
        exact Prod.ext k1 k2
    exact List.pairwise_map.mpr this
  · intro hnodup d hd
    refine ⟨?_, ?_, ?_, ?_, ?_, ?_⟩
    · rw [List.filter_append, List.countP_append]
      have e1 : (kept.filter fun e => decide (e.channel.numbers.J = d.channel.numbers.J ∧
          e.channel.numbers.parity = d.channel.numbers.parity)).countP ChannelData.eliminated = 0 := by
        rw [List.countP_eq_zero]
        intro e he
        rw [((hk e).mp (List.mem_filter.mp he).1).2]
        decide
      rw [e1, zero_add]
      refine le_trans List.countP_le_length ?_
      have hp : (merged.filter fun e => decide (e.channel.numbers.J = d.channel.numbers.J ∧
          e.channel.numbers.parity = d.channel.numbers.parity)).Pairwise fun a b => a.jpi < b.jpi :=
        (List.pairwise_map.mp h3).sublist List.filter_sublist
      match hm : merged.filter fun e => decide (e.channel.numbers.J = d.channel.numbers.J ∧
          e.channel.numbers.parity = d.channel.numbers.parity) with
      | [] => rw [hm]; simp
      | [_] => rw [hm]; simp
      | a :: b :: rest =>
        rw [hm] at hp
        have ha : a ∈ a :: b :: rest := by simp
        have hb : b ∈ a :: b :: rest := by simp
        rw [← hm, List.mem_filter, decide_eq_true_iff] at ha hb
        have hlt := (List.pairwise_cons.mp hp).1 b (by simp)
        have heq : a.jpi = b.jpi := by
          unfold ChannelData.jpi
          rw [ha.2.1, ha.2.2, hb.2.1, hb.2.2]
        exact absurd heq hlt.ne
    · obtain ⟨e, he, -, k1, k2⟩ := hel' d hd
      exact ⟨e, List.mem_filter.mpr ⟨List.mem_append_left _ he, by simp [k1, k2]⟩, ((hk e).mp he).2⟩
    · intro a ha b hb ea eb
      rw [hinc a ((hk a).mp (hfk a (List.mem_filter.mp ha).1 ea)).1,
        hinc b ((hk b).mp (hfk b (List.mem_filter.mp hb).1 eb)).1]
    · have hsub : (((kept ++ merged).filter fun e => decide (e.channel.numbers.J = d.channel.numbers.J ∧
          e.channel.numbers.parity = d.channel.numbers.parity)).filter fun d => ¬ d.eliminated).Sublist
          kept := by
        refine List.Sublist.trans (List.Sublist.filter _ List.filter_sublist) ?_
        rw [List.filter_append]
        have : (merged.filter fun d => decide (¬ d.eliminated = true)) = [] := by
          rw [List.filter_eq_nil_iff]
          intro e he
          simp [h2 e he]
        rw [this, List.append_nil]
        exact List.filter_sublist
      exact hnodup.sublist (hsub.map _)
    · intro a ha b hb _ _
      have ha' := (List.mem_filter.mp ha).2
      have hb' := (List.mem_filter.mp hb).2
      rw [decide_eq_true_iff] at ha' hb'
      exact ⟨ha'.1.trans hb'.1.symm, ha'.2.trans hb'.2.symm⟩
    · obtain ⟨e, he, k, k1, k2⟩ := hel' d hd
      exact ⟨e, List.mem_filter.mpr ⟨List.mem_append_left _ he, by simp [k1, k2]⟩, ((hk e).mp he).2, k⟩

theorem makeChannelRadii_exists {ap ap' : ℝ} {nro : Option (ℝ → Outcome ℝ)} {naps : ℤ}
    {awri neutronMass : ℝ} {radii : ChannelRadii}
    (h : makeChannelRadii ap nro naps awri neutronMass = .ok radii) :
    ∃ radii', makeChannelRadii ap' nro naps awri neutronMass = .ok radii' := by
  unfold makeChannelRadii at h ⊢
  simp only at h ⊢
  by_cases hf : awri * neutronMass < 0
  · cases nro with
    | none =>
      by_cases h0 : naps = 0
      · simp [h0, hf, bind, Except.bind] at h
      · simp [h0]
    | some t =>
      by_cases h0 : naps = 0
      · simp [h0, hf, bind, Except.bind] at h
      by_cases h1 : naps = 1
      · simp [h1]
      by_cases h2 : naps = 2
      · simp [h2]
      · simp [h0, h1, h2] at h
  · cases nro with
    | none =>
      by_cases h0 : naps = 0
      · simp [h0, hf, bind, Except.bind, pure, Except.pure]
      · simp [h0]
    | some t =>
      by_cases h0 : naps = 0
      · simp [h0, hf, bind, Except.bind, pure, Except.pure]
      by_cases h1 : naps = 1
      · simp [h1]
      by_cases h2 : naps = 2
      · simp [h2]
      · simp [h0, h1, h2] at h

end Endf

end Verif
