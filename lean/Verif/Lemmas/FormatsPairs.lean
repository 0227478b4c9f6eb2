import Verif.Lemmas.FormatsRange

/-!
# Lemmas on particle pairs and spin groups in two formats
-/

namespace Verif.Formats

open Spec Complex Endf

variable {reactions : ReactionLibrary} {neutronMass elementaryCharge A : ℝ} {incident target : Str}
  {p : ReichMoore} {x : Supplement} {naps : ℤ}

/-! ## Particle pairs -/

/-- The pair of a row. -/
noncomputable def pairOf (neutronMass elementaryCharge : ℝ) (a b : Str) (id : PairID) (row : ParticlePairRow) :
    ParticlePair :=
  ⟨⟨a, row.massA * neutronMass, row.chargeA * elementaryCharge, row.spinA, 1⟩,
    ⟨b, row.massB * neutronMass, row.chargeB * elementaryCharge, row.spinB, 1⟩, id,
    row.massA * neutronMass * (row.massB * neutronMass) / (row.massA * neutronMass + row.massB * neutronMass),
    row.massB * neutronMass / (row.massA * neutronMass + row.massB * neutronMass)⟩

theorem comma_ne {a b s : Str} (h : ',' ∉ s) : pairID a b ≠ s := by
  rintro rfl
  simp [pairID] at h

theorem fission_comma : ',' ∉ "fission".toList := by decide
theorem capture_comma : ',' ∉ "capture".toList := by decide

theorem pairs_exist (hm : 0 < neutronMass) (he : 0 ≤ elementaryCharge) (hA : 0 < A) (hx : 0 ≤ x.charge)
    (hc : CaptureNamed reactions incident target) :
    ∃ pc pe pf, List.Forall₂ (IsPair reactions neutronMass elementaryCharge incident target) (rmlPairs A x)
        [pc, pe, pf] ∧ [pc.id, pe.id, pf.id].Nodup ∧ pe.id = pairID incident target ∧
      pf.id = "fission".toList := by
  obtain ⟨a, b, h1, h2⟩ := hc
  refine ⟨pairOf neutronMass elementaryCharge a b (pairID a b)
      ⟨0, A + 1, 0, x.charge, 1, 1 / 2, 0, 0, x.qCapture, 0, 102⟩,
    pairOf neutronMass elementaryCharge incident target (pairID incident target)
      ⟨1, A, 0, x.charge, 1 / 2, 0, 0, 1, 0, 0, 2⟩,
    pairOf neutronMass elementaryCharge incident target "fission".toList
      ⟨1, A, 0, x.charge, 1 / 2, 0, 0, 1, x.qFission, 0, 18⟩, ?_, ?_, rfl, rfl⟩
  · refine .cons ?_ (.cons ?_ (.cons ?_ .nil))
    · refine ⟨?_, ⟨rfl, rfl⟩, ⟨rfl, rfl⟩, ?_, ?_, ?_, ?_, rfl, rfl⟩
      · unfold IsName
        rw [if_neg (by norm_num), if_neg (by norm_num)]
        exact ⟨h1, rfl⟩
      · norm_num [SpinParity, pairOf]
      · norm_num [SpinParity, pairOf]
      · refine ⟨?_, ?_, ?_, ?_⟩ <;> simp only [pairOf] <;> positivity
      · simp only [pairOf]
        have : 0 < (A + 1) * neutronMass := by positivity
        linarith
    · refine ⟨?_, ⟨rfl, rfl⟩, ⟨rfl, rfl⟩, ?_, ?_, ?_, ?_, rfl, rfl⟩
      · unfold IsName
        rw [if_pos rfl]
        exact ⟨rfl, rfl, rfl⟩
      · norm_num [SpinParity, pairOf]
      · norm_num [SpinParity, pairOf]
      · refine ⟨?_, ?_, ?_, ?_⟩ <;> simp only [pairOf] <;> positivity
      · simp only [pairOf]
        have : 0 < A * neutronMass := by positivity
        linarith
    · refine ⟨?_, ⟨rfl, rfl⟩, ⟨rfl, rfl⟩, ?_, ?_, ?_, ?_, rfl, rfl⟩
      · unfold IsName
        rw [if_neg (by norm_num), if_pos rfl]
        exact ⟨rfl, rfl, rfl⟩
      · norm_num [SpinParity, pairOf]
      · norm_num [SpinParity, pairOf]
      · refine ⟨?_, ?_, ?_, ?_⟩ <;> simp only [pairOf] <;> positivity
      · simp only [pairOf]
        have : 0 < A * neutronMass := by positivity
        linarith
  · show [pairID a b, pairID incident target, "fission".toList].Nodup
    simp only [List.nodup_cons, List.mem_cons, List.not_mem_nil, or_false, not_or, not_false_iff,
      List.nodup_nil, and_true]
    exact ⟨⟨h2, comma_ne fission_comma⟩, comma_ne fission_comma⟩

/-! ## Spin groups -/

theorem mem_partialWaves {n l : ℕ} {J : ℚ} (h : (l, J) ∈ partialWaves n) : l < n ∧ J ∈ spinsOf l := by
  unfold partialWaves at h
  obtain ⟨l', h1, h2⟩ := List.mem_flatMap.mp h
  obtain ⟨J', h3, h4⟩ := List.mem_map.mp h2
  cases h4
  exact ⟨List.mem_range.mp h1, h3⟩

theorem resonancesOf_energies (hd : DistinctEnergies p) {l : ℕ} {J : ℚ} (hJ : J ∈ spinsOf l) :
    ((resonancesOf p l J).map ReichMooreResonance.energy).Nodup := by
  refine List.Nodup.sublist (List.Sublist.map _ ?_) (hd J ((-1) ^ l))
  unfold resonancesOf
  refine List.Sublist.trans (List.Sublist.filter _ (l₂ := (p.lValues.filter fun lv =>
    (-1 : ℤ) ^ lv.l = (-1) ^ l).flatMap ReichMooreLValue.resonances) ?_) (List.monotone_filter_right _ ?_)
  · refine List.Sublist.flatMap (List.monotone_filter_right _ ?_) _
    intro lv hlv
    have hlv : lv.l = l := by simpa using hlv
    simp [hlv]
  · intro r hr
    have hr : r.spin = J := by simpa using hr
    simp [hr, abs_of_pos (spinsOf_pos hJ)]

theorem row_number {i : ℕ} {k : ℕ × ℚ} {mass : ℝ} {row : ChannelRow}
    (h : (rmlGroup mass naps p k).channels[i]? = some row) : row.pairNumber - 1 = i ∧ i < 3 ∧
      row.pairNumber = i + 1 := by
  match i, h with
  | 0, h => obtain rfl := Option.some.inj h; exact ⟨rfl, by norm_num, rfl⟩
  | 1, h => obtain rfl := Option.some.inj h; exact ⟨rfl, by norm_num, rfl⟩
  | 2, h => obtain rfl := Option.some.inj h; exact ⟨rfl, by norm_num, rfl⟩
  | i + 3, h => simp [rmlGroup] at h

theorem type_exists (pair : ParticlePair) (mt : ℤ) : ∃ t, IsType pair mt t := by
  by_cases h1 : mt = 102
  · subst h1
    exact ⟨_, .capture⟩
  · by_cases h2 : mt ∈ [18, 19, 20, 21, 38]
    · exact ⟨_, .fission h2⟩
    · have h3 : mt ∉ [102, 18, 19, 20, 21, 38] := by
        rw [List.mem_cons, not_or]
        exact ⟨h1, h2⟩
      by_cases h4 : 0 < pair.particle.charge
      · exact ⟨_, .charged h3 h4⟩
      · exact ⟨_, .neutral h3 (not_lt.mp h4)⟩

theorem ordered (pairs : List ParticlePair) (hd : DistinctEnergies p) {k : ℕ × ℚ}
    (hk : k ∈ partialWaves p.nlsc) : Ordered pairs (asRMatrixLimited neutronMass A naps x p)
      (rmlGroup (A * neutronMass) naps p k) := by
  refine ⟨le_refl _, ?_, ?_, ?_, ?_, ?_⟩
  · intro row hrow
    obtain ⟨i, hi⟩ := List.mem_iff_getElem?.mp hrow
    obtain ⟨-, h2, h3⟩ := row_number hi
    show 1 ≤ row.pairNumber ∧ row.pairNumber ≤ 3
    omega
  · intro i row hi pair here there h1 h2 h3
    obtain ⟨e, -, -⟩ := row_number hi
    rw [e, h1] at h3
    obtain rfl := Option.some.inj h3
    obtain ⟨t, ht⟩ := type_exists pair here.mt
    exact ⟨t, ht, ht⟩
  · intro i j a b hi hj ha hb
    obtain ⟨e1, k1, -⟩ := row_number hi
    obtain ⟨e2, k2, -⟩ := row_number hj
    have key : ∀ n < 3, (∃ pairRow, (rmlPairs A x)[n]? = some pairRow ∧ pairRow.mt = 102) → n = 0 := by
      rintro n hn ⟨row, h1, h2⟩
      match n, h1 with
      | 0, _ => rfl
      | 1, h1 => obtain rfl := Option.some.inj h1; norm_num at h2
      | 2, h1 => obtain rfl := Option.some.inj h1; norm_num at h2
      | n + 3, h1 => omega
    unfold Captures at ha hb
    rw [e1] at ha
    rw [e2] at hb
    rw [key i k1 ha, key j k2 hb]
  · have := resonancesOf_energies hd (mem_partialWaves (l := k.1) (J := k.2) hk).2
    show (((resonancesOf p k.1 k.2).map _).map Prod.fst).Nodup
    rw [List.map_map]
    exact this
  · intro h
    show (resonancesOf p k.1 k.2).map _ = []
    rw [List.length_eq_zero_iff.mp h, List.map_nil]

theorem spin_parity {k : ℕ × ℚ} {mass : ℝ} {J : ℚ} {π : ℤ} (hk : 0 < k.2)
    (h : SpinParity (rmlGroup mass naps p k).spin (rmlGroup mass naps p k).parity J π) :
    J = k.2 ∧ π = (-1) ^ k.1 := by
  obtain ⟨h1, h2, h3⟩ := h
  have h1 : J = |(-1) ^ k.1 * k.2| := h1
  have h3 : π = 1 ↔ 0 < (-1) ^ k.1 * k.2 ∨ (-1) ^ k.1 * k.2 = 0 ∧ (0 : ℤ) ≤ 0 := h3
  rcases Nat.even_or_odd k.1 with hp | hp
  · rw [hp.neg_one_pow, one_mul] at h1 h3
    rw [hp.neg_one_pow]
    exact ⟨h1.trans (abs_of_pos hk), h3.mpr (.inl hk)⟩
  · rw [hp.neg_one_pow, neg_one_mul] at h1 h3
    rw [hp.neg_one_pow]
    refine ⟨h1.trans (by rw [abs_neg, abs_of_pos hk]), h2.resolve_left fun e => ?_⟩
    rcases h3.mp e with h | h
    · linarith
    · linarith [h.1]

theorem wave_unique {l l' : ℕ} {J : ℚ} (h : J ∈ spinsOf l) (h' : J ∈ spinsOf l')
    (hp : ((-1) ^ l : ℤ) = (-1) ^ l') : l = l' := by
  have key : ∀ {l : ℕ}, J ∈ spinsOf l → (l : ℚ) = J - 1 / 2 ∨ (l : ℚ) = J + 1 / 2 := by
    intro l h
    unfold spinsOf at h
    split at h
    · rename_i hl
      simp only [List.mem_singleton] at h
      left
      rw [hl, h]
      norm_num
    · simp only [List.mem_cons, List.not_mem_nil, or_false] at h
      rcases h with rfl | rfl
      · right; ring
      · left; ring
  have h2 : ∀ {n : ℕ}, ((-1) ^ n : ℤ) ≠ (-1) ^ (n + 1) := by
    intro n e
    rcases Nat.even_or_odd n with hn | hn
    · rw [pow_succ, hn.neg_one_pow] at e
      norm_num at e
    · rw [pow_succ, hn.neg_one_pow] at e
      norm_num at e
  rcases key h with e | e <;> rcases key h' with e' | e'
  · exact_mod_cast e.trans e'.symm
  · have : l' = l + 1 := by
      have : (l' : ℚ) = l + 1 := by linarith
      exact_mod_cast this
    rw [this] at hp
    exact absurd hp h2
  · have : l = l' + 1 := by
      have : (l : ℚ) = l' + 1 := by linarith
      exact_mod_cast this
    rw [this] at hp
    exact absurd hp.symm h2
  · exact_mod_cast e.trans e'.symm

theorem partialWaves_nodup (n : ℕ) : (partialWaves n).Nodup := by
  unfold partialWaves
  rw [List.nodup_flatMap]
  refine ⟨fun l _ => (spinsOf_nodup l).map fun a b e => (Prod.mk.inj e).2, ?_⟩
  refine List.nodup_range.imp ?_
  intro a b hab
  rw [Function.onFun, List.disjoint_left]
  intro y h1 h2
  obtain ⟨J, -, rfl⟩ := List.mem_map.mp h1
  obtain ⟨J', -, e⟩ := List.mem_map.mp h2
  exact hab (Prod.mk.inj e).1.symm

theorem groups_differ (mass : ℝ) : ((partialWaves p.nlsc).map (rmlGroup mass naps p)).Pairwise
    fun a b => ¬ SameSpinParity a b := by
  rw [List.pairwise_map]
  refine (partialWaves_nodup p.nlsc).imp_of_mem ?_
  rintro ⟨l, J⟩ ⟨l', J'⟩ h1 h2 hne ⟨j, π, h3, h4⟩
  have h1 := (mem_partialWaves h1).2
  have h2 := (mem_partialWaves h2).2
  obtain ⟨e1, e2⟩ := spin_parity (k := (l, J)) (spinsOf_pos h1) h3
  obtain ⟨e3, e4⟩ := spin_parity (k := (l', J')) (spinsOf_pos h2) h4
  have eJ : J = J' := e1.symm.trans e3
  subst eJ
  exact hne (by rw [wave_unique h1 h2 (e2.symm.trans e4)])

/-! ## Acceptance -/

theorem lengthOf_pos (hap : 0 < p.ap) {lv : ReichMooreLValue} (h : 0 ≤ lv.apl) : 0 < lengthOf p lv := by
  unfold lengthOf
  split
  · rename_i h0
    exact lt_of_le_of_ne h (Ne.symm h0)
  · exact hap

theorem scatteringLength_pos (hap : 0 < p.ap) (h : ∀ lv ∈ p.lValues, 0 ≤ lv.apl) (l : ℕ) :
    0 < scatteringLength p l := by
  unfold scatteringLength
  cases hf : p.lValues.filter fun lv => lv.l = l with
  | nil => exact hap
  | cons lv rest =>
    have : lv ∈ p.lValues.filter fun lv => lv.l = l := by rw [hf]; exact List.mem_cons_self
    exact lengthOf_pos hap (h lv (List.mem_filter.mp this).1)

theorem channelLength_pos {mass : ℝ} (hm : 0 < mass) (hap : 0 < p.ap) (h : ∀ lv ∈ p.lValues, 0 ≤ lv.apl)
    (l : ℕ) : 0 < channelLength mass naps p l := by
  unfold channelLength
  split
  · have := Real.rpow_pos_of_pos hm (1 / 3)
    positivity
  · exact scatteringLength_pos hap h l

theorem halfInt_spinsOf {l : ℕ} {J : ℚ} (h : J ∈ spinsOf l) : HalfInt J := by
  unfold spinsOf at h
  split at h
  · simp only [List.mem_singleton] at h
    exact ⟨1, by rw [h]; norm_num⟩
  · rename_i hl
    simp only [List.mem_cons, List.not_mem_nil, or_false] at h
    rcases h with rfl | rfl
    · refine ⟨2 * l - 1, ?_⟩
      rw [Nat.cast_sub (by omega)]
      push_cast
      ring
    · refine ⟨2 * l + 1, ?_⟩
      push_cast
      ring

theorem physical {pc pe pf : ParticlePair} (hm : 0 < neutronMass) (hs : SimpleReichMoore A p)
    (hpairs : List.Forall₂ (IsPair reactions neutronMass elementaryCharge incident target) (rmlPairs A x)
      [pc, pe, pf]) (hids : [pc.id, pe.id, pf.id].Nodup) (hw : 0 < p.nlsc ∧ p.nlsc ≤ 5)
    (hap : 0 < p.ap) (hapl : ∀ lv ∈ p.lValues, 0 ≤ lv.apl)
    (hq : ∀ lv ∈ p.lValues, ∀ r ∈ lv.resonances, r.energy ≠ 0 ∧ A / (A + 1) * r.energy + x.qCapture ≠ 0 ∧
      A / (A + 1) * r.energy + x.qFission ≠ 0) :
    PhysicalRMatrix reactions neutronMass elementaryCharge incident target
      (asRMatrixLimited neutronMass A naps x p) [pc, pe, pf] pe := by
  have hA := hs.positive
  have hpe : IsPair reactions neutronMass elementaryCharge incident target
      ⟨1, A, 0, x.charge, 1 / 2, 0, 0, 1, 0, 0, 2⟩ pe := by
    cases hpairs with
    | cons _ h => cases h with
      | cons h _ => exact h
  have hratio : pe.massRatio = A / (A + 1) := by
    rw [hpe.ratio, hpe.masses.1, hpe.masses.2, one_mul]
    field_simp
    ring
  have hrow : ∀ row ∈ (rmlPairs A x), Emits row.mt → row = ⟨1, A, 0, x.charge, 1 / 2, 0, 0, 1, 0, 0, 2⟩ := by
    intro row hrow hem
    simp only [rmlPairs, List.mem_cons, List.not_mem_nil, or_false] at hrow
    rcases hrow with rfl | rfl | rfl
    · simp [Emits] at hem
    · rfl
    · simp [Emits] at hem
  refine ⟨rfl, hpairs, by simpa using hids, ?_, ?_, ⟨1, _, rfl, rfl, rfl⟩, ⟨_, List.mem_cons_self, rfl⟩, ?_,
    ?_, groups_differ _, ?_, ?_, ?_, ?_, ?_, ?_⟩
  · intro row hrow
    simp only [asRMatrixLimited, rmlPairs, List.mem_cons, List.not_mem_nil, or_false] at hrow
    rcases hrow with rfl | rfl | rfl <;> rfl
  · intro row h1 h2
    rw [hrow row h1 h2]
    exact ⟨by positivity, by positivity⟩
  · intro e
    have e := List.map_eq_nil_iff.mp e
    unfold partialWaves at e
    rw [List.flatMap_eq_nil_iff] at e
    have := e 0 (List.mem_range.mpr hw.1)
    simp [spinsOf] at this
  · intro record hrec
    obtain ⟨k, hk, rfl⟩ := List.mem_map.mp hrec
    exact ordered _ hs.energies hk
  · intro record hrec
    obtain ⟨k, hk, rfl⟩ := List.mem_map.mp hrec
    have hJ := (mem_partialWaves (l := k.1) (J := k.2) hk).2
    constructor
    · show HalfInt |(-1 : ℚ) ^ k.1 * k.2|
      rw [abs_mul, abs_neg_one_pow, one_mul, abs_of_pos (spinsOf_pos hJ)]
      exact halfInt_spinsOf hJ
    · intro row hrow
      simp only [rmlGroup, List.mem_cons, List.not_mem_nil, or_false] at hrow
      rcases hrow with rfl | rfl | rfl
      · exact ⟨0, by norm_num⟩
      · exact ⟨1, by norm_num⟩
      · exact ⟨0, by norm_num⟩
  · intro record hrec
    obtain ⟨k, hk, rfl⟩ := List.mem_map.mp hrec
    exact ⟨_, List.mem_cons_of_mem _ List.mem_cons_self, _, rfl, rfl⟩
  · intro record hrec
    obtain ⟨k, hk, rfl⟩ := List.mem_map.mp hrec
    simp [rmlGroup]
  · intro record hrec v hv
    obtain ⟨k, hk, rfl⟩ := List.mem_map.mp hrec
    obtain ⟨r, -, rfl⟩ := List.mem_map.mp hv
    exact le_refl _
  · intro record hrec row hrow' pairRow h1 h2
    obtain ⟨k, hk, rfl⟩ := List.mem_map.mp hrec
    have h3 := hrow pairRow (List.mem_of_getElem? h1) h2
    simp only [rmlGroup, List.mem_cons, List.not_mem_nil, or_false] at hrow'
    rcases hrow' with rfl | rfl | rfl
    · obtain rfl := Option.some.inj h1
      simp [Emits] at h2
    · refine ⟨?_, channelLength_pos (by positivity) hap hapl _⟩
      have := (mem_partialWaves (l := k.1) (J := k.2) hk).1
      show k.1 ≤ 4
      omega
    · obtain rfl := Option.some.inj h1
      simp [Emits] at h2
  · intro _ record hrec v hv row hrow'
    obtain ⟨k, hk, rfl⟩ := List.mem_map.mp hrec
    obtain ⟨r, hr, rfl⟩ := List.mem_map.mp hv
    unfold resonancesOf at hr
    obtain ⟨lv, hlv, hr⟩ := List.mem_flatMap.mp (List.mem_filter.mp hr).1
    obtain ⟨q1, q2, q3⟩ := hq lv (List.mem_filter.mp hlv).1 r hr
    rw [hratio]
    simp only [asRMatrixLimited, rmlPairs, List.mem_cons, List.not_mem_nil, or_false] at hrow'
    rcases hrow' with rfl | rfl | rfl
    · exact q2
    · show A / (A + 1) * r.energy + 0 ≠ 0
      rw [add_zero]
      exact mul_ne_zero (by positivity) q1
    · exact q3

end Verif.Formats
