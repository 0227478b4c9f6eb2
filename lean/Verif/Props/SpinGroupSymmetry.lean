import Verif.Props.SpinGroup

/-!
# Property C20: sign conventions and orderings do not matter
-/

namespace Verif

open Complex Matrix

/-! ## Order of the resonances -/

theorem rMatrix_perm {channels : List Channel} {E : ℝ} {rs rs' : List Resonance}
    (h : rs.Perm rs') : Spec.rMatrix channels rs E = Spec.rMatrix channels rs' E := by
  ext i j
  simp only [Spec.rMatrix, Matrix.of_apply]
  exact (h.map _).sum_eq

/-- C20: the order of the resonances in the table is irrelevant. -/
theorem C20_resonance_order {option : BoundaryOption} {K : Constants}
    {lib : CoulombLibrary} (channels : List Channel) (reactions : List ReactionID)
    (incident : List (Fin channels.length)) (ids : List Str) (rs rs' : List Resonance) (E : ℝ)
    (h : rs.Perm rs') (cache : MatrixCache channels.length)
    (result : CrossSectionMap) (tresult : Str → Option ℂ) :
    SpinGroup.evaluate option K lib ⟨channels, reactions, incident, ⟨ids, rs⟩⟩ E cache result
      = SpinGroup.evaluate option K lib ⟨channels, reactions, incident, ⟨ids, rs'⟩⟩ E cache result ∧
    SpinGroup.evaluateTMatrix option K lib ⟨channels, reactions, incident, ⟨ids, rs⟩⟩ E cache tresult
      = SpinGroup.evaluateTMatrix option K lib ⟨channels, reactions, incident, ⟨ids, rs'⟩⟩ E cache
          tresult := by
  have key : ∀ P, rlmatrix option K lib channels rs E P cache
      = rlmatrix option K lib channels rs' E P cache := fun P =>
    rlmatrix_congr (forall_congr' fun r => by rw [h.mem_iff])
      (exists_congr fun r => by rw [h.mem_iff]) (rMatrix_perm h)
  refine ⟨?_, ?_⟩
  · simp only [SpinGroup.evaluate, SpinGroup.prepare, key]
    cases incident <;> rfl
  · simp only [SpinGroup.evaluateTMatrix, key]

/-! ## Signs of the reduced widths -/

namespace Spec

/-- `rs'` differs from `rs` in the sign of all widths of some channels (`ε`), in the sign of all
widths of some resonances, and in the signs of some eliminated widths. -/
def SignVariant {n : ℕ} (ε : Fin n → ℝ) : List Resonance → List Resonance → Prop :=
  List.Forall₂ fun r r' => r'.energy = r.energy ∧ r'.eliminated ^ 2 = r.eliminated ^ 2 ∧
    r'.widths.length = r.widths.length ∧
    ∃ s : ℝ, (s = 1 ∨ s = -1) ∧ ∀ c : Fin n, r'.width c = s * ε c * r.width c

end Spec

section Signs

variable {channels : List Channel} {E : ℝ} {ε : Fin channels.length → ℝ}

theorem SignVariant.symm (hε : ∀ c, ε c = 1 ∨ ε c = -1) {rs rs' : List Resonance}
    (h : Spec.SignVariant ε rs rs') : Spec.SignVariant ε rs' rs := by
  induction h with
  | nil => exact .nil
  | cons h1 _ ih =>
    refine .cons ⟨h1.1.symm, h1.2.1.symm, h1.2.2.1.symm, ?_⟩ ih
    obtain ⟨s, hs, hw⟩ := h1.2.2.2
    refine ⟨s, hs, fun c => ?_⟩
    rw [hw c]
    rcases hs with rfl | rfl <;> rcases hε c with h | h <;> rw [h] <;> ring

theorem rMatrix_signVariant {rs rs' : List Resonance} (h : Spec.SignVariant ε rs rs') :
    Spec.rMatrix channels rs' E = diagonal (fun c => (ε c : ℂ)) * Spec.rMatrix channels rs E *
      diagonal (fun c => (ε c : ℂ)) := by
  induction h with
  | nil => simp [rMatrix_nil]
  | @cons r r' _ _ h1 _ ih =>
    rw [rMatrix_cons, rMatrix_cons, ih, Matrix.mul_add, Matrix.add_mul]
    congr 1
    ext i j
    obtain ⟨he, hel, hlen, s, hs, hw⟩ := h1
    have hamp : ∀ c, Spec.amplitude channels E r' c = s * ε c * Spec.amplitude channels E r c := by
      intro c
      unfold Spec.amplitude
      split
      · simp
      · exact hw c
    have hden : r'.denominator E = r.denominator E := by
      rw [denominator_eq, denominator_eq, he]
      have : ((r'.eliminated : ℂ)) ^ 2 = (r.eliminated : ℂ) ^ 2 := by exact_mod_cast hel
      rw [this]
    rw [Matrix.mul_diagonal, Matrix.diagonal_mul]
    simp only [Matrix.of_apply, hamp, hden]
    have hs2 : (s : ℂ) * s = 1 := by
      rcases hs with rfl | rfl <;> simp
    push_cast
    linear_combination ((ε i : ℂ) * Spec.amplitude channels E r i *
      (ε j * Spec.amplitude channels E r j) * (r.denominator E)⁻¹) * hs2

theorem diagonal_sq (hε : ∀ c, ε c = 1 ∨ ε c = -1) :
    diagonal (fun c => (ε c : ℂ)) * diagonal (fun c => (ε c : ℂ)) = 1 := by
  rw [diagonal_mul_diagonal, ← diagonal_one]
  congr 1
  funext c
  rcases hε c with h | h <;> simp [h]

variable {option : BoundaryOption} {P S : Fin channels.length → ℝ} {rs rs' : List Resonance}

theorem levelDenominator_signVariant (hε : ∀ c, ε c = 1 ∨ ε c = -1)
    (h : Spec.SignVariant ε rs rs') :
    Spec.levelDenominator option channels rs' E P S = diagonal (fun c => (ε c : ℂ)) *
      Spec.levelDenominator option channels rs E P S * diagonal (fun c => (ε c : ℂ)) := by
  unfold Spec.levelDenominator
  rw [rMatrix_signVariant h]
  set D := diagonal (fun c => (ε c : ℂ)) with hD
  have hDD : D * D = 1 := diagonal_sq hε
  rw [Matrix.mul_sub, Matrix.sub_mul, Matrix.mul_one, hDD]
  congr 1
  have hcomm : D * diagonal (Spec.logDerivative option channels P S)
      = diagonal (Spec.logDerivative option channels P S) * D := by
    rw [hD, diagonal_mul_diagonal, diagonal_mul_diagonal]
    congr 1
    funext c
    ring
  simp only [Matrix.mul_assoc]
  rw [hcomm]

theorem det_signVariant (hε : ∀ c, ε c = 1 ∨ ε c = -1)
    (h : Spec.SignVariant ε rs rs') :
    (Spec.levelDenominator option channels rs' E P S).det
      = (Spec.levelDenominator option channels rs E P S).det := by
  rw [levelDenominator_signVariant hε h, det_mul, det_mul]
  have : (diagonal fun c => (ε c : ℂ)).det * (diagonal fun c => (ε c : ℂ)).det = 1 := by
    rw [← det_mul, diagonal_sq hε, det_one]
  linear_combination ((Spec.levelDenominator option channels rs E P S).det) * this

theorem tMatrix_signVariant (hε : ∀ c, ε c = 1 ∨ ε c = -1)
    (h : Spec.SignVariant ε rs rs') (c c' : Fin channels.length) :
    Spec.tMatrix option channels rs' E P S c c'
      = ε c * ε c' * Spec.tMatrix option channels rs E P S c c' := by
  have hDD : diagonal (fun c => (ε c : ℂ)) * diagonal (fun c => (ε c : ℂ)) = 1 := diagonal_sq hε
  have hinv : (diagonal fun c => (ε c : ℂ))⁻¹ = diagonal fun c => (ε c : ℂ) :=
    inv_eq_right_inv hDD
  have hX : (Spec.levelDenominator option channels rs' E P S)⁻¹ * Spec.rMatrix channels rs' E
      = diagonal (fun c => (ε c : ℂ)) * ((Spec.levelDenominator option channels rs E P S)⁻¹ *
        Spec.rMatrix channels rs E) * diagonal (fun c => (ε c : ℂ)) := by
    rw [levelDenominator_signVariant hε h, rMatrix_signVariant h, Matrix.mul_inv_rev,
      Matrix.mul_inv_rev, hinv]
    simp only [← Matrix.mul_assoc]
    rw [Matrix.mul_assoc (_ * _) (diagonal _) (diagonal _), hDD, Matrix.mul_one]
  simp only [Spec.tMatrix, Matrix.of_apply, hX]
  rw [Matrix.mul_diagonal, Matrix.diagonal_mul]
  ring

theorem collision_signVariant (hε : ∀ c, ε c = 1 ∨ ε c = -1) (w phi : Fin channels.length → ℝ)
    (h : Spec.SignVariant ε rs rs') (c c' : Fin channels.length) :
    Spec.collision (Spec.tMatrix option channels rs' E P S) w phi c c'
      = ε c * ε c' * Spec.collision (Spec.tMatrix option channels rs E P S) w phi c c' := by
  have hd : (if c = c' then (1 : ℂ) else 0) = ε c * ε c' * (if c = c' then (1 : ℂ) else 0) := by
    by_cases hc : c = c'
    · subst hc
      rcases hε c with h | h <;> simp [h]
    · simp [hc]
  rw [Spec.collision, Spec.collision, tMatrix_signVariant hε h]
  linear_combination (exp (I * (w c - phi c)) * exp (I * (w c' - phi c'))) * hd

theorem contribution_signVariant {K : Constants} (hε : ∀ c, ε c = 1 ∨ ε c = -1)
    (w phi : Fin channels.length → ℝ) (h : Spec.SignVariant ε rs rs') (id : ReactionID) :
    Spec.contribution option K channels rs' E P S w phi id
      = Spec.contribution option K channels rs E P S w phi id := by
  have hsq : ∀ c c', normSq ((ε c : ℂ) * ε c') = 1 := by
    intro c c'
    rcases hε c with h | h <;> rcases hε c' with h' | h' <;> simp [h, h']
  have hpart : ∀ c c', Spec.partialCrossSection
      (Spec.collision (Spec.tMatrix option channels rs' E P S) w phi) w c c'
      = Spec.partialCrossSection
        (Spec.collision (Spec.tMatrix option channels rs E P S) w phi) w c c' := by
    intro c c'
    unfold Spec.partialCrossSection
    rw [collision_signVariant hε w phi h]
    by_cases hc : c = c'
    · subst hc
      have : (ε c : ℂ) * ε c = 1 := by rcases hε c with h | h <;> simp [h]
      rw [this, one_mul]
    · rw [if_neg hc, zero_sub, zero_sub, normSq_neg, normSq_neg, normSq_mul, hsq, one_mul]
  have hcap : ∀ c, Spec.captureCrossSection
      (Spec.collision (Spec.tMatrix option channels rs' E P S) w phi) c
      = Spec.captureCrossSection
        (Spec.collision (Spec.tMatrix option channels rs E P S) w phi) c := by
    intro c
    unfold Spec.captureCrossSection
    simp only [collision_signVariant hε w phi h, normSq_mul (_ * _), hsq, one_mul]
  unfold Spec.contribution
  simp only [hpart, hcap]

theorem Evaluable_signVariant {K : Constants} {lib : CoulombLibrary}
    {w phi : Fin channels.length → ℝ} (hε : ∀ c, ε c = 1 ∨ ε c = -1)
    (h : Spec.SignVariant ε rs rs')
    (hev : Spec.Evaluable option K lib channels rs E P S w phi) :
    Spec.Evaluable option K lib channels rs' E P S w phi := by
  refine ⟨hev.penetrability, hev.shiftFactor, hev.coulomb, hev.phase, hev.nonneg, ?_, ?_, ?_,
    hev.waveNumber⟩
  · have := hev.widths
    clear hev
    induction h with
    | nil => simp
    | cons h1 _ ih =>
      simp only [List.mem_cons, forall_eq_or_imp] at this ⊢
      exact ⟨h1.2.2.1.trans this.1, ih this.2⟩
  · have := hev.noPole
    clear hev
    induction h with
    | nil => simp
    | cons h1 _ ih =>
      simp only [List.mem_cons, forall_eq_or_imp] at this ⊢
      refine ⟨?_, ih this.2⟩
      rintro ⟨e1, e2⟩
      apply this.1
      refine ⟨h1.1.symm.trans e1, ?_⟩
      have := h1.2.1
      rw [e2] at this
      simpa using this.symm
  · rw [det_signVariant hε h]
    exact hev.invertible

end Signs

/-- A built group with other resonances of the same shape is again a built group. -/
theorem SpinGroup.Built.with_resonances {channels : List Channel} {reactions : List ReactionID}
    {incident : List (Fin channels.length)} {ids : List Str} {rs : List Resonance}
    (h : SpinGroup.Built ⟨channels, reactions, incident, ⟨ids, rs⟩⟩) (rs' : List Resonance) :
    SpinGroup.Built ⟨channels, reactions, incident, ⟨ids, rs'⟩⟩ := by
  unfold SpinGroup.Built makeSpinGroup at h ⊢
  simp only [bind, Except.bind] at h ⊢
  split at h
  · cases h
  rename_i hr
  split at h
  · cases h
  rename_i hv
  split at h
  · cases h
  rename_i hi
  split at h
  · cases h
  rename_i hres
  have hres' : verifyResonanceChannels channels ⟨ids, rs'⟩ = .ok () := hres
  simp only [pure, Except.pure, Except.ok.injEq, SpinGroup.mk.injEq, heq_eq_eq, true_and,
    and_true] at h
  simp only [hres', pure, Except.pure, h]

theorem C20_signs_aux {option : BoundaryOption} {K : Constants} {lib : CoulombLibrary}
    {channels : List Channel} {reactions : List ReactionID} {incident : List (Fin channels.length)}
    {ids : List Str} {rs rs' : List Resonance} {E : ℝ}
    (hg : SpinGroup.Built ⟨channels, reactions, incident, ⟨ids, rs⟩⟩)
    (ε : Fin channels.length → ℝ) (hε : ∀ c, ε c = 1 ∨ ε c = -1) (h : Spec.SignVariant ε rs rs')
    (cache : MatrixCache channels.length) (result result' : CrossSectionMap)
    (hok : ∃ cache', SpinGroup.evaluate option K lib
        ⟨channels, reactions, incident, ⟨ids, rs⟩⟩ E cache result = .ok (result', cache')) :
    ∃ cache', SpinGroup.evaluate option K lib
        ⟨channels, reactions, incident, ⟨ids, rs'⟩⟩ E cache result = .ok (result', cache') := by
  obtain ⟨cache', hok⟩ := hok
  obtain ⟨P, S, w, phi, hev, hres⟩ := evaluate_ok hg hok
  have hev' := Evaluable_signVariant hε h hev
  have hg' := hg.with_resonances rs'
  obtain ⟨⟨m, c⟩, hm⟩ := evaluate_ok_of hg' hev' cache result
  obtain ⟨P', S', w', phi', hev'', hres'⟩ := evaluate_ok hg' hm
  refine ⟨c, ?_⟩
  rw [hm]
  congr 2
  funext id
  rw [hres, hres', ← Evaluable_contribution hev' hev'' id, contribution_signVariant hε w phi h id]

/-- C20: changing the signs of all widths of a channel, of all widths of a resonance, or of an
eliminated width changes no cross section: one group can be evaluated if and only if the other can,
and then both give the same map. -/
theorem C20_signs {option : BoundaryOption} {K : Constants} {lib : CoulombLibrary}
    {channels : List Channel} {reactions : List ReactionID} {incident : List (Fin channels.length)}
    {ids : List Str} {rs rs' : List Resonance} {E : ℝ}
    (hg : SpinGroup.Built ⟨channels, reactions, incident, ⟨ids, rs⟩⟩)
    (ε : Fin channels.length → ℝ) (hε : ∀ c, ε c = 1 ∨ ε c = -1) (h : Spec.SignVariant ε rs rs')
    (cache : MatrixCache channels.length) (result result' : CrossSectionMap) :
    (∃ cache', SpinGroup.evaluate option K lib
        ⟨channels, reactions, incident, ⟨ids, rs⟩⟩ E cache result = .ok (result', cache')) ↔
    (∃ cache', SpinGroup.evaluate option K lib
        ⟨channels, reactions, incident, ⟨ids, rs'⟩⟩ E cache result = .ok (result', cache')) :=
  ⟨C20_signs_aux hg ε hε h cache result result',
    C20_signs_aux (hg.with_resonances rs') ε hε (SignVariant.symm hε h) cache result result'⟩

/-- A sign change that meets the hypotheses: the fission width amplitudes of the example and all
amplitudes of its second resonance. -/
example : Spec.SignVariant (fun c : Fin Example.channels.length => if c.val = 2 then -1 else 1)
    Example.resonances [⟨1, [1 / 2, 1 / 3, -1 / 5], 1 / 10⟩, ⟨5, [-1 / 4, 0, 1], 0⟩] := by
  refine .cons ⟨rfl, rfl, rfl, 1, Or.inl rfl, ?_⟩ (.cons ⟨rfl, rfl, rfl, -1, Or.inr rfl, ?_⟩ .nil)
  · intro c
    obtain ⟨c, hc⟩ := c
    have hc3 : c < 3 := hc
    interval_cases c <;> simp [Resonance.width]; norm_num
  · intro c
    obtain ⟨c, hc⟩ := c
    have hc3 : c < 3 := hc
    interval_cases c <;> simp [Resonance.width]; norm_num

/-! ## Order of the channels -/

namespace Spec

/-- `channels'` with `rs'` is `channels` with `rs` in another order: channel `i` has become `σ i`. -/
structure Reordered {channels channels' : List Channel}
    (σ : Fin channels.length ≃ Fin channels'.length) (rs rs' : List Resonance) : Prop where
  sameChannels : ∀ i : Fin channels.length, channels'[σ i] = channels[i]
  resonances : List.Forall₂ (fun r r' : Resonance => r'.energy = r.energy ∧
    r'.eliminated = r.eliminated ∧ (r.widths.length = channels.length →
      r'.widths.length = channels'.length) ∧ ∀ i, r'.width (σ i) = r.width i) rs rs'

end Spec

section Order

variable {channels channels' : List Channel} {σ : Fin channels.length ≃ Fin channels'.length}
  {rs rs' : List Resonance} {E : ℝ} {option : BoundaryOption} {K : Constants}
  {lib : CoulombLibrary} {P S w phi : Fin channels.length → ℝ}

theorem rMatrix_reordered (h : Spec.Reordered σ rs rs') (i j : Fin channels.length) :
    Spec.rMatrix channels' rs' E (σ i) (σ j) = Spec.rMatrix channels rs E i j := by
  obtain ⟨hc, hr⟩ := h
  induction hr with
  | nil => simp [rMatrix_nil]
  | @cons r r' _ _ h1 _ ih =>
    rw [rMatrix_cons, rMatrix_cons, Matrix.add_apply, Matrix.add_apply, ih]
    congr 1
    have hamp : ∀ i, Spec.amplitude channels' E r' (σ i) = Spec.amplitude channels E r i := by
      intro i
      unfold Spec.amplitude
      rw [hc i, h1.2.2.2 i]
    have hd : r'.denominator E = r.denominator E := by
      rw [denominator_eq, denominator_eq, h1.1, h1.2.1]
    simp only [Matrix.of_apply, hamp, hd]

theorem rMatrix_submatrix (h : Spec.Reordered σ rs rs') :
    (Spec.rMatrix channels' rs' E).submatrix σ σ = Spec.rMatrix channels rs E := by
  ext i j
  exact rMatrix_reordered h i j

theorem levelDenominator_submatrix (h : Spec.Reordered σ rs rs') :
    (Spec.levelDenominator option channels' rs' E (P ∘ σ.symm) (S ∘ σ.symm)).submatrix σ σ
      = Spec.levelDenominator option channels rs E P S := by
  unfold Spec.levelDenominator
  have hL : ∀ i, Spec.logDerivative option channels' (P ∘ σ.symm) (S ∘ σ.symm) (σ i)
      = Spec.logDerivative option channels P S i := by
    intro i
    cases option <;> simp [Spec.logDerivative, ← h.sameChannels i]
  rw [← rMatrix_submatrix h]
  ext i j
  simp only [Matrix.submatrix_apply, Matrix.sub_apply, Matrix.mul_diagonal, hL, Matrix.one_apply,
    EmbeddingLike.apply_eq_iff_eq]

theorem tMatrix_reordered (h : Spec.Reordered σ rs rs') (i j : Fin channels.length) :
    Spec.tMatrix option channels' rs' E (P ∘ σ.symm) (S ∘ σ.symm) (σ i) (σ j)
      = Spec.tMatrix option channels rs E P S i j := by
  simp only [Spec.tMatrix, Matrix.of_apply, Function.comp_apply, Equiv.symm_apply_apply]
  rw [← levelDenominator_submatrix h, ← rMatrix_submatrix h, inv_submatrix_equiv,
    submatrix_mul_equiv, Matrix.submatrix_apply]

theorem det_reordered (h : Spec.Reordered σ rs rs') :
    (Spec.levelDenominator option channels' rs' E (P ∘ σ.symm) (S ∘ σ.symm)).det
      = (Spec.levelDenominator option channels rs E P S).det := by
  rw [← levelDenominator_submatrix h, det_submatrix_equiv_self]

theorem collision_reordered (h : Spec.Reordered σ rs rs') (i j : Fin channels.length) :
    Spec.collision (Spec.tMatrix option channels' rs' E (P ∘ σ.symm) (S ∘ σ.symm)) (w ∘ σ.symm)
        (phi ∘ σ.symm) (σ i) (σ j)
      = Spec.collision (Spec.tMatrix option channels rs E P S) w phi i j := by
  simp only [Spec.collision, tMatrix_reordered h, Function.comp_apply, Equiv.symm_apply_apply,
    EmbeddingLike.apply_eq_iff_eq]

/-- All incident channels have the same wave number and spin factor. -/
def SameIncident (K : Constants) (E : ℝ) (channels : List Channel) : Prop :=
  ∀ c ∈ channels, ∀ d ∈ channels, c.isIncident → d.isIncident →
    c.waveNumber K E = d.waveNumber K E ∧ c.spinFactor = d.spinFactor

theorem getElem_reordered (hσ : ∀ i : Fin channels.length, channels'[σ i] = channels[i])
    (i : Fin channels'.length) : channels'[i] = channels[σ.symm i] := by
  obtain ⟨j, rfl⟩ := σ.surjective i
  simpa using hσ j

theorem mem_reordered (hσ : ∀ i : Fin channels.length, channels'[σ i] = channels[i]) (c : Channel) :
    c ∈ channels' ↔ c ∈ channels := by
  constructor
  · intro h
    obtain ⟨i, hi, rfl⟩ := List.getElem_of_mem h
    have h2 : channels'[i] = channels[σ.symm ⟨i, hi⟩] := getElem_reordered hσ ⟨i, hi⟩
    rw [h2]
    exact List.getElem_mem _
  · intro h
    obtain ⟨i, hi, rfl⟩ := List.getElem_of_mem h
    have := hσ ⟨i, hi⟩
    have h2 : channels'[σ ⟨i, hi⟩] = channels[i] := this
    rw [← h2]
    exact List.getElem_mem _

theorem find?_reordered (hσ : ∀ i : Fin channels.length, channels'[σ i] = channels[i])
    (hsame : SameIncident K E channels) :
    Spec.incidentFactor K channels' E = Spec.incidentFactor K channels E ∧
    ((∃ c, channels.find? Channel.isIncident = some c ∧ c.waveNumber K E ≠ 0) →
      ∃ c, channels'.find? Channel.isIncident = some c ∧ c.waveNumber K E ≠ 0) := by
  unfold Spec.incidentFactor
  cases h : channels.find? Channel.isIncident with
  | none =>
    have h' : channels'.find? Channel.isIncident = none := by
      rw [List.find?_eq_none] at h ⊢
      intro c hc
      exact h c ((mem_reordered hσ c).mp hc)
    rw [h']
    simp
  | some c =>
    cases h' : channels'.find? Channel.isIncident with
    | none =>
      exfalso
      rw [List.find?_eq_none] at h'
      exact h' c ((mem_reordered hσ c).mpr (List.mem_of_find?_eq_some h)) (List.find?_some h)
    | some d =>
      obtain ⟨h1, h2⟩ := hsame c (List.mem_of_find?_eq_some h) d
        ((mem_reordered hσ d).mp (List.mem_of_find?_eq_some h')) (List.find?_some h)
        (List.find?_some h')
      simp [h1, h2]

theorem contribution_reordered (h : Spec.Reordered σ rs rs') (hsame : SameIncident K E channels)
    (hcap : Spec.captureID channels' = Spec.captureID channels) (id : ReactionID) :
    Spec.contribution option K channels' rs' E (P ∘ σ.symm) (S ∘ σ.symm) (w ∘ σ.symm)
        (phi ∘ σ.symm) id
      = Spec.contribution option K channels rs E P S w phi id := by
  unfold Spec.contribution
  simp only
  rw [← Equiv.sum_comp σ]
  refine Finset.sum_congr rfl fun c _ => ?_
  have hinner : ∀ c, (∑ c', if channels'[c'].reaction = id then
        Spec.incidentFactor K channels' E * Spec.partialCrossSection (Spec.collision
          (Spec.tMatrix option channels' rs' E (P ∘ σ.symm) (S ∘ σ.symm)) (w ∘ σ.symm)
          (phi ∘ σ.symm)) (w ∘ σ.symm) (σ c) c' else 0)
      = ∑ c' : Fin channels.length, if channels[c'].reaction = id then
        Spec.incidentFactor K channels E * Spec.partialCrossSection (Spec.collision
          (Spec.tMatrix option channels rs E P S) w phi) w c c' else 0 := by
    intro c
    rw [← Equiv.sum_comp σ]
    refine Finset.sum_congr rfl fun c' _ => ?_
    rw [h.sameChannels c', (find?_reordered h.sameChannels hsame).1]
    simp only [Spec.partialCrossSection, collision_reordered h, Function.comp_apply,
      Equiv.symm_apply_apply, EmbeddingLike.apply_eq_iff_eq]
  have hc : Spec.captureCrossSection (Spec.collision
          (Spec.tMatrix option channels' rs' E (P ∘ σ.symm) (S ∘ σ.symm)) (w ∘ σ.symm)
          (phi ∘ σ.symm)) (σ c)
      = Spec.captureCrossSection (Spec.collision
          (Spec.tMatrix option channels rs E P S) w phi) c := by
    unfold Spec.captureCrossSection
    rw [← Equiv.sum_comp σ]
    simp only [collision_reordered h]
  rw [hinner, hc, hcap, h.sameChannels c, (find?_reordered h.sameChannels hsame).1]

theorem Evaluable_reordered (h : Spec.Reordered σ rs rs') (hsame : SameIncident K E channels)
    (hev : Spec.Evaluable option K lib channels rs E P S w phi) :
    Spec.Evaluable option K lib channels' rs' E (P ∘ σ.symm) (S ∘ σ.symm) (w ∘ σ.symm)
      (phi ∘ σ.symm) := by
  have hch := getElem_reordered h.sameChannels
  refine ⟨?_, ?_, ?_, ?_, fun i => hev.nonneg _, ?_, ?_, ?_,
    (find?_reordered h.sameChannels hsame).2 hev.waveNumber⟩
  · intro i; rw [hch i]; exact hev.penetrability _
  · intro ho i; rw [hch i]; exact hev.shiftFactor ho _
  · intro i; rw [hch i]; exact hev.coulomb _
  · intro i; rw [hch i]; exact hev.phase _
  · have := hev.widths
    have hr := h.resonances
    clear hev h
    induction hr with
    | nil => simp
    | cons h1 _ ih =>
      simp only [List.mem_cons, forall_eq_or_imp] at this ⊢
      exact ⟨h1.2.2.1 this.1, ih this.2⟩
  · have := hev.noPole
    have hr := h.resonances
    clear hev h
    induction hr with
    | nil => simp
    | cons h1 _ ih =>
      simp only [List.mem_cons, forall_eq_or_imp] at this ⊢
      rw [h1.1, h1.2.1]
      exact ⟨this.1, ih this.2⟩
  · rw [det_reordered h]
    exact hev.invertible

end Order

/-- C20: the order of the channels is irrelevant: a group with the channels (and correspondingly the
widths) in another order can be evaluated if the original one can, and gives the same map of cross
sections - provided that the incident channels agree on wave number and spin factor, of which the
code takes those of the first one. -/
theorem C20_channel_order {option : BoundaryOption} {K : Constants} {lib : CoulombLibrary}
    {g g' : SpinGroup} {E : ℝ} (hg : g.Built) (hg' : g'.Built)
    (σ : Fin g.channels.length ≃ Fin g'.channels.length)
    (h : Spec.Reordered σ g.table.resonances g'.table.resonances)
    (hsame : SameIncident K E g.channels)
    (cache : MatrixCache g.channels.length) (cache₂ : MatrixCache g'.channels.length)
    (result result' : CrossSectionMap)
    (hok : ∃ c, g.evaluate option K lib E cache result = .ok (result', c)) :
    ∃ c, g'.evaluate option K lib E cache₂ result = .ok (result', c) := by
  obtain ⟨c, hok⟩ := hok
  obtain ⟨P, S, w, phi, hev, hres⟩ := evaluate_ok hg hok
  have hev' := Evaluable_reordered h hsame hev
  obtain ⟨⟨m, c'⟩, hm⟩ := evaluate_ok_of hg' hev' cache₂ result
  obtain ⟨P', S', w', phi', hev'', hres'⟩ := evaluate_ok hg' hm
  refine ⟨c', ?_⟩
  rw [hm]
  congr 2
  obtain ⟨-, first, rest, h2, h3, -⟩ := hg.incident
  obtain ⟨-, first', rest', h2', h3', -⟩ := hg'.incident
  have hfirst : first'.incident.id = first.incident.id := by
    have hm1 : first' ∈ g.channels := (mem_reordered h.sameChannels first').mp (by rw [h2']; simp)
    have hm2 : first ∈ g.channels := by rw [h2]; simp
    exact ((C24_accepted _ _).mp ⟨g, hg⟩).sameIncident _ hm1 _ hm2
  have hcap : Spec.captureID g'.channels = Spec.captureID g.channels := by
    rw [captureID_eq h2, captureID_eq h2', hfirst]
  have hmem : ∀ id, id ∈ g'.reactions ↔ id ∈ g.reactions := by
    intro id
    rw [h3, h3', hfirst]
    simp only [List.mem_append, List.mem_map, mem_reordered h.sameChannels]
  funext id
  rw [hres, hres', ← Evaluable_contribution hev' hev'' id, contribution_reordered h hsame hcap id]
  simp only [hmem]

/-- Two channels that meet the hypothesis on the incident channels: the example has only one. -/
example (E : ℝ) : SameIncident Example.constants E Example.channels := by
  intro c hc d hd hci hdi
  simp only [Example.channels, List.mem_cons, List.not_mem_nil, or_false] at hc hd
  have n1 : ¬ Example.inelastic.isIncident := by decide
  have n2 : ¬ Example.fission.isIncident := by decide
  rcases hc with rfl | rfl | rfl
  · rcases hd with rfl | rfl | rfl
    · exact ⟨rfl, rfl⟩
    · exact absurd hdi n1
    · exact absurd hdi n2
  · exact absurd hci n1
  · exact absurd hci n2

end Verif
