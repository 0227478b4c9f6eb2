import Verif.Lemmas.OrderMore
import Verif.Lemmas.Formats
import Verif.Lemmas.RMatrixRecord

/-!
# The cross sections of an R-matrix-limited range are determined by the formula
-/

namespace Verif.Endf

open Spec Complex

variable {K : Constants} {lib : CoulombLibrary} {E : ℝ}

/-- Channels that differ in their names only. -/
def Alike (c c' : Channel) : Prop :=
  c' = { c with id := c'.id, reaction := c'.reaction, spinFactor := c'.spinFactor }

theorem alike_of {incident : ParticlePair} {pairs : List ParticlePair} {rows : List ParticlePairRow}
    {spin : ℚ} {parity : ℤ} {row : ChannelRow} {c c' : Channel}
    (h : IsChannel incident pairs rows spin parity row c)
    (h' : IsChannel incident pairs rows spin parity row c') : Alike c c' := by
  have h1 := h.incident.trans h'.incident.symm
  have h2 : c.pair = c'.pair := Option.some.inj (h.pair.symm.trans h'.pair)
  obtain ⟨r, k1, k2, k3⟩ := h.reaction
  obtain ⟨r', k1', k2', k3'⟩ := h'.reaction
  obtain rfl := Option.some.inj (k1.symm.trans k1')
  have h3 := k2.trans k2'.symm
  rw [h2] at k3
  have h4 := Formats.type_unique k3 k3'
  have h5 := h.l.trans h'.l.symm
  have h6 := h.s.trans h'.s.symm
  obtain ⟨h7, h8⟩ := spinParity_unique h.jpi h'.jpi
  have h9 := h.boundary.trans h'.boundary.symm
  have h10 : c.radii = c'.radii := by
    have e1 : c.radii.penetrability = c'.radii.penetrability :=
      funext fun e => (h.radii e).1.trans (h'.radii e).1.symm
    have e2 : c.radii.shiftFactor = c'.radii.shiftFactor :=
      funext fun e => (h.radii e).2.1.trans (h'.radii e).2.1.symm
    have e3 : c.radii.phaseShift = c'.radii.phaseShift :=
      funext fun e => (h.radii e).2.2.trans (h'.radii e).2.2.symm
    generalize c.radii = x at e1 e2 e3
    generalize c'.radii = y at e1 e2 e3
    cases x
    cases y
    simp_all
  have h11 : c.numbers = c'.numbers := by
    generalize c.numbers = x at h5 h6 h7 h8
    generalize c'.numbers = y at h5 h6 h7 h8
    cases x
    cases y
    simp_all
  clear h h' k1 k2 k3 k1' k2' k3' h5 h6 h7 h8
  unfold Alike
  cases c
  cases c'
  simp_all

theorem penetrability_unique {c : Channel} {P P' : ℝ} (h : PenetrabilityAt K lib c E P)
    (h' : PenetrabilityAt K lib c E P') : P = P' := by
  unfold PenetrabilityAt at h h'
  cases ht : c.type with
  | neutron =>
    rw [ht] at h h'
    obtain ⟨-, a, h1, h2⟩ := h
    obtain ⟨-, b, h3, h4⟩ := h'
    obtain rfl := Except.ok.inj (h1.symm.trans h3)
    exact h2.trans h4.symm
  | charged =>
    rw [ht] at h h'
    obtain ⟨a, w, h1, h2, h3⟩ := h
    obtain ⟨b, v, h4, h5, h6⟩ := h'
    obtain rfl := Except.ok.inj (h1.symm.trans h4)
    obtain rfl := Except.ok.inj (h2.symm.trans h5)
    exact h3.trans h6.symm
  | photon =>
    rw [ht] at h h'
    exact Eq.trans h (Eq.symm h')
  | fission =>
    rw [ht] at h h'
    exact Eq.trans h (Eq.symm h')

theorem shiftFactor_unique {c : Channel} {S S' : ℝ} (h : ShiftFactorAt K lib c E S)
    (h' : ShiftFactorAt K lib c E S') : S = S' := by
  unfold ShiftFactorAt at h h'
  cases ht : c.type with
  | neutron =>
    rw [ht] at h h'
    obtain ⟨a, h1, h2⟩ := h
    obtain ⟨b, h3, h4⟩ := h'
    obtain rfl := Except.ok.inj (h1.symm.trans h3)
    exact h2.trans h4.symm
  | charged =>
    rw [ht] at h h'
    obtain ⟨a, w, h1, h2, h3⟩ := h
    obtain ⟨b, v, h4, h5, h6⟩ := h'
    obtain rfl := Except.ok.inj (h1.symm.trans h4)
    obtain rfl := Except.ok.inj (h2.symm.trans h5)
    exact h3.trans h6.symm
  | photon =>
    rw [ht] at h h'
    exact Eq.trans h (Eq.symm h')
  | fission =>
    rw [ht] at h h'
    exact Eq.trans h (Eq.symm h')

theorem reducedWidth_unique {G P γ γ' : ℝ} (hP : P ≠ 0) (h : ReducedWidth G P γ)
    (h' : ReducedWidth G P γ') : γ = γ' := by
  obtain ⟨h1, h2, h3⟩ := h
  obtain ⟨h4, h5, h6⟩ := h'
  have hsq : γ ^ 2 = γ' ^ 2 := mul_left_cancel₀ (mul_ne_zero two_ne_zero hP) (h1.trans h4.symm)
  rcases sq_eq_sq_iff_eq_or_eq_neg.mp hsq with h | h
  · exact h
  · rcases lt_trichotomy γ' 0 with hn | hz | hp
    · have := h2.mpr (h5.mp ?_)
      · linarith [h6.mp hn, h3.mpr (h6.mp hn)]
      · linarith [h6.mp hn, h3.mpr (h6.mp hn)]
    · rw [h, hz, neg_zero]
    · linarith [h2.mpr (h5.mp hp)]

theorem isRWidth_unique {reduced : ℤ} {c : Channel} {energy width γ γ' : ℝ}
    (h : IsRWidth K lib reduced c energy width γ) (h' : IsRWidth K lib reduced c energy width γ') :
    γ = γ' := by
  unfold IsRWidth at h h'
  split at h
  · rw [if_pos (by assumption)] at h'
    exact h.trans h'.symm
  · rw [if_neg (by assumption)] at h'
    split at h
    · rw [if_pos (by assumption)] at h'
      exact h.trans h'.symm
    · rw [if_neg (by assumption)] at h'
      obtain ⟨P, h1, h2, h3⟩ := h
      obtain ⟨P', h4, h5, h6⟩ := h'
      obtain rfl := penetrability_unique h1 h4
      exact reducedWidth_unique h2 h3 h6

/-! ## The collision matrix -/

theorem collision_diagonal {n : ℕ} (T : Matrix (Fin n) (Fin n) ℂ) (w φ : Fin n → ℝ) (c : Fin n) :
    normSq (exp (2 * I * w c) - collision T w φ c c) = normSq (1 - (exp (2 * I * φ c))⁻¹ * (1 + 2 * I * T c c)) := by
  have e : exp (2 * I * w c) - collision T w φ c c
      = exp (2 * I * w c) * (1 - (exp (2 * I * φ c))⁻¹ * (1 + 2 * I * T c c)) := by
    have k : exp (I * (w c - φ c)) * exp (I * (w c - φ c)) = exp (2 * I * w c) * (exp (2 * I * φ c))⁻¹ := by
      rw [← exp_neg, ← exp_add, ← exp_add]
      congr 1
      ring
    unfold collision
    rw [if_pos rfl]
    linear_combination (-(1 + 2 * I * T c c)) * k
  rw [e, map_mul]
  have : normSq (exp (2 * I * w c)) = 1 := by
    rw [normSq_eq_norm_sq, show 2 * I * (w c : ℂ) = ((2 * w c : ℝ) : ℂ) * I by push_cast; ring,
      norm_exp_ofReal_mul_I]
    norm_num
  rw [this, one_mul]

theorem collision_normSq {n : ℕ} (T : Matrix (Fin n) (Fin n) ℂ) (w φ : Fin n → ℝ) (c c' : Fin n) :
    normSq (collision T w φ c c') = normSq ((if c = c' then 1 else 0) + 2 * I * T c c') := by
  have h : ∀ x y : ℝ, normSq (exp (I * ((x : ℂ) - y))) = 1 := by
    intro x y
    rw [normSq_eq_norm_sq, show I * ((x : ℂ) - y) = ((x - y : ℝ) : ℂ) * I by push_cast; ring,
      norm_exp_ofReal_mul_I]
    norm_num
  unfold collision
  rw [map_mul, map_mul, h, h, one_mul, mul_one]

/-- Channels in which no level takes part do not scatter, and do not matter. -/
theorem T_same {n : ℕ} {R : Matrix (Fin n) (Fin n) ℂ} {L L' : Fin n → ℂ} {P P' : Fin n → ℝ}
    {part : Fin n → Prop} (hr : ∀ c, ¬ part c → ∀ c', R c c' = 0 ∧ R c' c = 0)
    (hL : ∀ c, part c → L c = L' c) (hP : ∀ c, part c → P c = P' c)
    (hdet : (1 - R * Matrix.diagonal L).det ≠ 0) (c c' : Fin n) :
    (Real.sqrt (P c) : ℂ) * ((1 - R * Matrix.diagonal L)⁻¹ * R) c c' * (Real.sqrt (P c') : ℂ)
      = (Real.sqrt (P' c) : ℂ) * ((1 - R * Matrix.diagonal L')⁻¹ * R) c c' * (Real.sqrt (P' c') : ℂ) := by
  have e : R * Matrix.diagonal L = R * Matrix.diagonal L' := by
    ext i j
    rw [Matrix.mul_diagonal, Matrix.mul_diagonal]
    by_cases hj : part j
    · rw [hL j hj]
    · rw [(hr j hj i).2, zero_mul, zero_mul]
  rw [← e]
  by_cases hc : part c
  · by_cases hc' : part c'
    · rw [hP c hc, hP c' hc']
    · have : ((1 - R * Matrix.diagonal L)⁻¹ * R) c c' = 0 := by
        rw [Matrix.mul_apply]
        exact Finset.sum_eq_zero fun j _ => by rw [(hr c' hc' j).2, mul_zero]
      rw [this]
      ring
  · have : ((1 - R * Matrix.diagonal L)⁻¹ * R) c c' = 0 := by
      have hX : (1 - R * Matrix.diagonal L) * ((1 - R * Matrix.diagonal L)⁻¹ * R) = R := by
        rw [← Matrix.mul_assoc, Matrix.mul_nonsing_inv _ (isUnit_iff_ne_zero.mpr hdet), Matrix.one_mul]
      generalize (1 - R * Matrix.diagonal L)⁻¹ * R = X at hX ⊢
      have h1 := congrFun (congrFun hX c) c'
      rw [Matrix.sub_mul, Matrix.one_mul, Matrix.sub_apply, (hr c hc c').1] at h1
      have h2 : (R * Matrix.diagonal L * X) c c' = 0 := by
        rw [Matrix.mul_apply]
        exact Finset.sum_eq_zero fun j _ => by rw [Matrix.mul_diagonal, (hr c hc j).1]; ring
      rw [h2, sub_zero] at h1
      exact h1
    rw [this]
    ring

/-! ## Spin groups -/

theorem forall₂_ofFn {α β : Type} {Q : α → β → Prop} {n : ℕ} {xs : List α} {f : Fin n → β}
    (h : List.Forall₂ Q xs (List.ofFn f)) (i : Fin n) : ∃ x, xs[i.1]? = some x ∧ Q x (f i) := by
  have hl := h.length_eq
  rw [List.length_ofFn] at hl
  have hi : i.1 < xs.length := by rw [hl]; exact i.2
  refine ⟨xs[i.1], List.getElem?_eq_getElem hi, ?_⟩
  have := List.forall₂_iff_get.mp h
  have := this.2 i.1 hi (by rw [List.length_ofFn]; exact i.2)
  simpa using this

variable {incident : ParticlePair} {pairs : List ParticlePair} {p : RMatrixLimited}
  {record : SpinGroupRecord}

/-- What there is to know of the incident pair. -/
structure IncidentPair (pairs : List ParticlePair) (p : RMatrixLimited) (incident : ParticlePair) : Prop where
  named : ∃ (i : ℕ) (row : ParticlePairRow), p.pairs[i]? = some row ∧ row.mt = 2 ∧ pairs[i]? = some incident
  distinct : (pairs.map ParticlePair.id).Nodup
  neutral : incident.particle.charge ≤ 0

theorem group_unique {g g' : RGroup} (hi : IncidentPair pairs p incident)
    (h : IsRGroup K lib incident pairs p E record g) (h' : IsRGroup K lib incident pairs p E record g') :
    (∀ out, g.into K E out = g'.into K E out) ∧ g.capture K E = g'.capture K E := by
  classical
  obtain ⟨n, channel, elim, own, P, S, φ, levels⟩ := g
  obtain ⟨n', channel', elim', own', P', S', φ', levels'⟩ := g'
  have hn : n = n' := by
    have h1 := h.channels.length_eq
    have h2 := h'.channels.length_eq
    rw [List.length_ofFn] at h1 h2
    exact h1.symm.trans h2
  subst hn
  have hrow : ∀ i : Fin n, ∃ row pairRow, record.channels[i.1]? = some row ∧
      p.pairs[row.pairNumber - 1]? = some pairRow ∧ IsType (channel i).pair pairRow.mt (channel i).type ∧
      pairs[row.pairNumber - 1]? = some (channel i).pair ∧ (channel i).incident = incident ∧
      Alike (channel i) (channel' i) := by
    intro i
    obtain ⟨row, h1, h2⟩ := forall₂_ofFn h.channels i
    obtain ⟨row', h3, h4⟩ := forall₂_ofFn h'.channels i
    dsimp only at h1 h2 h3 h4
    obtain rfl := Option.some.inj (h1.symm.trans h3)
    obtain ⟨pairRow, h5, -, h7⟩ := h2.reaction
    exact ⟨row, pairRow, h1, h5, h7, h2.pair, h2.incident, alike_of h2 h4⟩
  have halike : ∀ i, Alike (channel i) (channel' i) := fun i => by
    obtain ⟨-, -, -, -, -, -, -, h⟩ := hrow i
    exact h
  have hinc : ∀ i, (channel' i).incident = (channel i).incident := fun i => by rw [halike i]
  have hpair : ∀ i, (channel' i).pair = (channel i).pair := fun i => by rw [halike i]
  have hq : ∀ i, (channel' i).q = (channel i).q := fun i => by rw [halike i]
  have hb : ∀ i, (channel' i).boundary = (channel i).boundary := fun i => by rw [halike i]
  have helim : elim' = elim := funext fun i => by
    obtain ⟨row, pairRow, h1, h2, -⟩ := hrow i
    exact propext ((h'.flags i row pairRow h1 h2).1.trans (h.flags i row pairRow h1 h2).1.symm)
  have hown : own' = own := funext fun i => by
    obtain ⟨row, pairRow, h1, h2, -⟩ := hrow i
    exact propext ((h'.flags i row pairRow h1 h2).2.trans (h.flags i row pairRow h1 h2).2.symm)
  subst helim hown
  have hpen : ∀ i e x, PenetrabilityAt K lib (channel' i) e x → PenetrabilityAt K lib (channel i) e x := by
    intro i e x hx
    rw [halike i] at hx
    exact hx
  have hshf : ∀ i e x, ShiftFactorAt K lib (channel' i) e x → ShiftFactorAt K lib (channel i) e x := by
    intro i e x hx
    rw [halike i] at hx
    exact hx
  have hpha : ∀ i e x, PhaseAt K lib (channel' i) e x → PhaseAt K lib (channel i) e x := by
    intro i e x hx
    rw [halike i] at hx
    exact hx
  have hlev : levels = levels' := by
    have k1 := h.levels
    have k2 := h'.levels
    dsimp only at k1 k2
    clear h h'
    generalize record.resonances = rs at k1 k2
    induction k1 generalizing levels' with
    | nil => cases k2; rfl
    | @cons r v _ _ h1 _ ih =>
      cases k2 with
      | @cons _ v' _ vs h2 h3 =>
        rw [ih vs h3]
        congr 1
        obtain ⟨a1, a2⟩ := h1
        obtain ⟨b1, b2⟩ := h2
        have hw : v.width = v'.width := funext fun i => by
          obtain ⟨x, x1, x2⟩ := a2 i
          obtain ⟨y, y1, y2⟩ := b2 i
          obtain rfl := Option.some.inj (x1.symm.trans y1)
          refine isRWidth_unique x2 ?_
          unfold IsRWidth at y2 ⊢
          split at y2
          · rw [if_pos (by assumption)]
            exact y2
          · rw [if_neg (by assumption)]
            split at y2
            · rw [if_pos (by assumption)]
              exact y2
            · rw [if_neg (by assumption)]
              obtain ⟨Q, q1, q2, q3⟩ := y2
              exact ⟨Q, hpen i _ _ q1, q2, q3⟩
        have he := a1.trans b1.symm
        cases v
        cases v'
        dsimp only at hw he
        rw [hw, he]
  subst hlev
  set g : RGroup := ⟨n, channel, elim', own', P, S, φ, levels⟩ with hg
  set g' : RGroup := ⟨n, channel', elim', own', P', S', φ', levels⟩ with hg'
  have hincident : ∀ i : Fin n, g'.isIncident i ↔ g.isIncident i := by
    intro i
    show (channel' i).pair.id = (channel' i).incident.id ↔ (channel i).pair.id = (channel i).incident.id
    rw [hpair, hinc]
  have hpart : ∀ i : Fin n, g'.TakesPart i ↔ g.TakesPart i := by
    intro i
    show (¬ elim' i ∧ (g'.isIncident i ∨ _)) ↔ (¬ elim' i ∧ (g.isIncident i ∨ _))
    rw [hincident]
  have hamp : ∀ v c, g'.amplitude E v c = g.amplitude E v c := by
    intro v c
    have e : (g'.eliminated c ∨ (g'.channel c).incident.massRatio * E + (g'.channel c).q < 0)
        = (g.eliminated c ∨ (g.channel c).incident.massRatio * E + (g.channel c).q < 0) := by
      show (elim' c ∨ (channel' c).incident.massRatio * E + (channel' c).q < 0) = (elim' c ∨ _)
      rw [hinc, hq]
    unfold RGroup.amplitude
    by_cases hc : g.eliminated c ∨ (g.channel c).incident.massRatio * E + (g.channel c).q < 0
    · rw [if_pos hc, if_pos (e ▸ hc)]
    · rw [if_neg hc, if_neg (e ▸ hc)]
  have hR : g'.R E = g.R E := by
    ext c c'
    unfold RGroup.R
    simp only [Matrix.of_apply]
    refine congrArg List.sum (List.map_congr_left fun v _ => ?_)
    rw [hamp, hamp]
    rfl
  have hzero : ∀ c : Fin n, ¬ g.TakesPart c → ∀ c' : Fin n, g.R E c c' = 0 ∧ g.R E c' c = 0 := by
    intro c hc c'
    have ha : ∀ v ∈ levels, g.amplitude E v c = 0 := by
      intro v hv
      unfold RGroup.amplitude
      by_cases he : elim' c
      · rw [if_pos (Or.inl he)]
      · split
        · rfl
        · by_contra hw
          exact hc ⟨he, Or.inr ⟨v, hv, hw⟩⟩
    unfold RGroup.R
    simp only [Matrix.of_apply]
    constructor
    · exact List.sum_eq_zero fun x hx => by
        obtain ⟨v, hv, rfl⟩ := List.mem_map.mp hx
        rw [ha v hv]
        simp
    · exact List.sum_eq_zero fun x hx => by
        obtain ⟨v, hv, rfl⟩ := List.mem_map.mp hx
        rw [ha v hv]
        simp
  have hP : ∀ c, g.TakesPart c → P c = P' c := fun c hc =>
    penetrability_unique (h.penetrability c hc).2 (hpen c _ _ (h'.penetrability c ((hpart c).mpr hc)).2)
  have hL : ∀ c, g.TakesPart c → g.L c = g'.L c := by
    intro c hc
    unfold RGroup.L
    have e1 : g.P c = g'.P c := hP c hc
    have e2 : (g'.channel c).boundary = (g.channel c).boundary := hb c
    rw [e1, e2]
    by_cases ho : own' c
    · rw [if_pos (show g.own c from ho), if_pos (show g'.own c from ho)]
    · have e3 : g.S c = g'.S c :=
        shiftFactor_unique (h.shiftFactor c hc ho) (hshf c _ _ (h'.shiftFactor c ((hpart c).mpr hc) ho))
      rw [if_neg (show ¬ g.own c from ho), if_neg (show ¬ g'.own c from ho), e3]
  have hT : g.T E = g'.T E := by
    ext c c'
    unfold RGroup.T
    simp only [Matrix.of_apply]
    rw [hR]
    exact T_same hzero hL hP h.finite.2 c c'
  have hw : ∀ c : Fin n, coulombAt K (channel' c) E = coulombAt K (channel c) E := by
    intro c
    rw [halike c]
    rfl
  have hφ : ∀ c : Fin n, g.isIncident c → exp (2 * I * φ c) = exp (2 * I * φ' c) := by
    intro c hc
    obtain ⟨row, pairRow, r1, r2, r3, r4, r5, -⟩ := hrow c
    obtain ⟨i, first, i1, i2, i3⟩ := hi.named
    have hc : (channel c).pair.id = (channel c).incident.id := hc
    have hidx : row.pairNumber - 1 = i := by
      have n1 : row.pairNumber - 1 < (pairs.map ParticlePair.id).length := by
        rw [List.length_map]
        exact (List.getElem?_eq_some_iff.mp r4).1
      refine (List.getElem?_inj n1 hi.distinct).mp ?_
      rw [List.getElem?_map, List.getElem?_map, r4, i3]
      rw [r5] at hc
      exact congrArg some hc
    rw [hidx] at r2 r4
    obtain rfl := Option.some.inj (i1.symm.trans r2)
    have hpi : (channel c).pair = incident := Option.some.inj (r4.symm.trans i3)
    have hty : (channel c).type = .neutron := by
      rw [hpi] at r3
      exact Formats.type_unique r3 (.neutral (by rw [i2]; decide) hi.neutral)
    have hel : ¬ elim' c := by
      intro he
      have := (h.flags c row first r1 (by rw [hidx]; exact i1)).1.mp he
      rw [i2] at this
      exact absurd this (by norm_num)
    have hpt : g.TakesPart c := ⟨hel, Or.inl hc⟩
    have k1 := h.phase c hpt
    have k2 := hpha c _ _ (h'.phase c ((hpart c).mpr hpt))
    unfold PhaseAt at k1 k2
    have hty1 : (g.channel c).type = .neutron := hty
    rw [hty1] at k1
    rw [hty] at k2
    obtain ⟨a, a1, a2⟩ := k1
    obtain ⟨b, b1, b2⟩ := k2
    obtain rfl := Except.ok.inj (a1.symm.trans b1)
    exact a2.trans b2.symm
  refine ⟨fun out => ?_, ?_⟩
  · unfold RGroup.into
    show (∑ c : Fin n, _) = ∑ c : Fin n, _
    refine Finset.sum_congr rfl fun c _ => ?_
    by_cases hc : g.isIncident c
    · rw [if_pos hc, if_pos ((hincident c).mpr hc)]
      show (∑ c' : Fin n, _) = ∑ c' : Fin n, _
      refine Finset.sum_congr rfl fun c' _ => ?_
      show (if (channel c').pair.id = out then _ else _) = if (channel' c').pair.id = out then _ else _
      rw [hpair]
      split
      · unfold RGroup.U
        rw [← hT]
        have e : (fun c : Fin n => coulombAt K (g'.channel c) E) = fun c : Fin n => coulombAt K (g.channel c) E :=
          funext hw
        have e' : coulombAt K (g'.channel c) E = coulombAt K (g.channel c) E := hw c
        rw [e', show collision (g.T E) (fun c => coulombAt K (g'.channel c) E) g'.φ c c'
          = collision (g.T E) (fun c : Fin n => coulombAt K (g.channel c) E) g'.φ c c' by rw [← e]]
        by_cases hcc : c = c'
        · subst hcc
          rw [if_pos rfl]
          rw [collision_diagonal (g.T E) (fun c : Fin n => coulombAt K (g.channel c) E) g.φ c,
            collision_diagonal (g.T E) (fun c : Fin n => coulombAt K (g.channel c) E) g'.φ c]
          show normSq (1 - (exp (2 * I * φ c))⁻¹ * _) = normSq (1 - (exp (2 * I * φ' c))⁻¹ * _)
          rw [hφ c hc]
        · rw [if_neg hcc, zero_sub, zero_sub, normSq_neg, normSq_neg, collision_normSq,
            collision_normSq]
      · rfl
    · rw [if_neg hc, if_neg fun k => hc ((hincident c).mp k)]
  · unfold RGroup.capture
    show (∑ c : Fin n, _) = ∑ c : Fin n, _
    refine Finset.sum_congr rfl fun c _ => ?_
    by_cases hc : g.isIncident c
    · rw [if_pos hc, if_pos ((hincident c).mpr hc)]
      refine congrArg _ ?_
      show (∑ c' : Fin n, _) = ∑ c' : Fin n, _
      refine Finset.sum_congr rfl fun c' _ => ?_
      unfold RGroup.U
      rw [collision_normSq, collision_normSq, hT]
    · rw [if_neg hc, if_neg fun k => hc ((hincident c).mp k)]

/-! ## Ranges -/

variable {q : ℝ} {p' : RMatrixLimited} {gs gs' : List RGroup} {m m' : ReactionID → Option ℝ}

/-- The formula determines the cross sections. -/
theorem isRMatrix_unique (hi : IncidentPair pairs p incident)
    (h : IsRMatrix K lib incident q pairs p E gs m) (h' : IsRMatrix K lib incident q pairs p E gs' m')
    (id : ReactionID) : (m id).getD 0 = (m' id).getD 0 := by
  by_cases h1 : id = .elastic incident.id
  · subst h1
    rw [h.elastic, h'.elastic]
    refine congrArg (fun x => (some x).getD 0) (zipWith_sum_unique h.groups h'.groups fun r g g' k k' => ?_)
    rw [(group_unique hi k k').1]
  by_cases h2 : id = .transition incident.id "capture".toList
  · subst h2
    rw [h.capture, h'.capture]
    refine congrArg (fun x => (some x).getD 0) (zipWith_sum_unique h.groups h'.groups fun r g g' k k' => ?_)
    rw [(group_unique hi k k').2]
  by_cases h3 : ∃ out, out ≠ incident.id ∧ id = .transition incident.id out
  · obtain ⟨out, h3, rfl⟩ := h3
    have hout : out ≠ "capture".toList := fun e => h2 (by rw [e])
    rw [h.reaction out h3 hout, h'.reaction out h3 hout]
    refine zipWith_sum_unique h.groups h'.groups fun r g g' k k' => ?_
    rw [(group_unique hi k k').1]
  · have n1 : m id = none := by
      by_contra hne
      rcases h.other id (Option.isSome_iff_ne_none.mpr hne) with e | e
      · exact h1 e
      · exact h3 e
    have n2 : m' id = none := by
      by_contra hne
      rcases h'.other id (Option.isSome_iff_ne_none.mpr hne) with e | e
      · exact h1 e
      · exact h3 e
    rw [n1, n2]

/-- The levels of a spin group in another order. -/
theorem group_relisted {record' : SpinGroupRecord} {g : RGroup} (hs : SameRecord record record')
    (hp : p.pairs = p'.pairs) (hw : p.reducedWidths = p'.reducedWidths)
    (h : IsRGroup K lib incident pairs p E record g) :
    ∃ g', IsRGroup K lib incident pairs p' E record' g' ∧
      (∀ out, g.into K E out = g'.into K E out) ∧ g.capture K E = g'.capture K E := by
  obtain ⟨n, channel, elim, own, P, S, φ, levels⟩ := g
  obtain ⟨levels', l1, l2⟩ : ∃ levels' : List (RLevel n),
      List.Forall₂ (fun (r : ℝ × List ℝ) (v : RLevel n) => v.energy = r.1 ∧
        ∀ i : Fin n, ∃ width, r.2[i.1]? = some width ∧
          IsRWidth K lib p.reducedWidths (channel i) r.1 width (v.width i)) record'.resonances levels' ∧
      levels.Perm levels' := by
    obtain ⟨levels', l1, l2, -⟩ := perm_along hs.resonances h.levels
    exact ⟨levels', l1, l2⟩
  set g : RGroup := ⟨n, channel, elim, own, P, S, φ, levels⟩ with hg
  set g' : RGroup := ⟨n, channel, elim, own, P, S, φ, levels'⟩ with hg'
  have hR : g'.R E = g.R E := by
    ext c c'
    unfold RGroup.R
    simp only [Matrix.of_apply]
    exact ((l2.map fun v : RLevel n => (g.amplitude E v c : ℂ) * g.amplitude E v c'
      / ((v.energy : ℂ) - E - I * g.captureHalf v)).sum_eq).symm
  have hT : g'.T E = g.T E := by
    unfold RGroup.T
    rw [hR]
    rfl
  have hU : g'.U K E = g.U K E := by
    unfold RGroup.U
    rw [hT]
  have hpart : ∀ i : Fin n, g'.TakesPart i ↔ g.TakesPart i := by
    intro i
    refine and_congr_right fun _ => or_congr Iff.rfl ?_
    constructor
    · rintro ⟨v, hv, hne⟩
      exact ⟨v, l2.mem_iff.mpr hv, hne⟩
    · rintro ⟨v, hv, hne⟩
      exact ⟨v, l2.mem_iff.mp hv, hne⟩
  refine ⟨g', ?_, ?_, ?_⟩
  · refine ⟨?_, ?_, ?_, ?_, ?_, ?_, ?_, ?_⟩
    · rw [← hs.spin, ← hs.parity, ← hs.channels, ← hp]
      exact h.channels
    · rw [← hs.channels, ← hp]
      exact h.flags
    · exact fun i hi => h.penetrability i ((hpart i).mp hi)
    · exact fun i hi => h.shiftFactor i ((hpart i).mp hi)
    · exact fun i hi => h.phase i ((hpart i).mp hi)
    · rw [← hw]
      exact l1
    · exact fun v hv => h.finite.1 v (l2.mem_iff.mpr hv)
    · rw [hR]
      exact h.finite.2
  · intro out
    unfold RGroup.into
    rw [hU]
    rfl
  · unfold RGroup.capture
    rw [hU]
    rfl

/-- The formula for a range holds for every order in which it may be given. -/
theorem isRMatrix_relisted (hs : SameRMatrix p p') (h : IsRMatrix K lib incident q pairs p E gs m) :
    ∃ gs', IsRMatrix K lib incident q pairs p' E gs' m := by
  obtain ⟨-, s1, s2, zs, s3, s4⟩ := hs
  obtain ⟨vs, v1, v2⟩ := relate_along (P' := IsRGroup K lib incident pairs p' E)
    (V := fun g g' => (∀ out, g.into K E out = g'.into K E out) ∧ g.capture K E = g'.capture K E) s3 h.groups
    fun x z w hxz hw => group_relisted hxz s2 s1 hw
  obtain ⟨gs', w1, -, w3⟩ := perm_along s4 v1
  have sums : ∀ (c : ℝ) (t : RGroup → ℝ), (∀ g g' : RGroup, (∀ out, g.into K E out = g'.into K E out) ∧
        g.capture K E = g'.capture K E → t g = t g') →
      (List.zipWith (fun record g => c * groupFactor incident record * t g) p.spinGroups gs).sum
      = (List.zipWith (fun record g => c * groupFactor incident record * t g) p'.spinGroups gs').sum := by
    intro c t ht
    rw [← w3]
    refine zipWith_sum_related s3 v2 fun x z w w' hxz hww => ?_
    unfold groupFactor
    rw [hxz.spin, ht _ _ hww]
  refine ⟨gs', w1, ?_, ?_, ?_, h.finite, h.other⟩
  · rw [h.elastic]
    exact congrArg _ (sums _ (fun g => g.into K E incident.id) fun g g' k => k.1 _)
  · rw [h.capture]
    exact congrArg _ (sums _ (fun g => g.capture K E) fun g g' k => k.2)
  · intro out h1 h2
    rw [h.reaction out h1 h2]
    exact sums _ (fun g => g.into K E out) fun g g' k => k.1 _

theorem ordered_same {record' : SpinGroupRecord} (hs : SameRecord record record') (hp : p.pairs = p'.pairs)
    (h : Ordered pairs p record) : Ordered pairs p' record' := by
  have hc : ∀ row, Captures p' row ↔ Captures p row := by
    intro row
    unfold Captures
    rw [hp]
  refine ⟨?_, ?_, ?_, ?_, ?_, ?_⟩
  · rw [← hs.channels, ← hp]
    exact h.count
  · rw [← hs.channels, ← hp]
    exact h.number
  · rw [← hs.channels, ← hp]
    exact h.type
  · rw [← hs.channels]
    intro i j a b h1 h2 h3 h4
    exact h.capture i j a b h1 h2 ((hc a).mp h3) ((hc b).mp h4)
  · exact (hs.resonances.map _).nodup_iff.mp h.energies
  · intro hn
    have := h.resonances (hs.numberResonances.trans hn)
    exact List.perm_nil.mp (this ▸ hs.resonances.symm)

theorem differ_same (hs : SameRMatrix p p') (h : p.spinGroups.Pairwise fun a b => ¬ SameSpinParity a b) :
    p'.spinGroups.Pairwise fun a b => ¬ SameSpinParity a b := by
  obtain ⟨zs, s3, s4⟩ := hs.spinGroups
  have hsymm : ∀ {a b : SpinGroupRecord}, ¬ SameSpinParity a b → ¬ SameSpinParity b a := by
    rintro a b hab ⟨J, π, h1, h2⟩
    exact hab ⟨J, π, h2, h1⟩
  refine (List.Perm.pairwise_iff hsymm s4).mp ?_
  · clear s4
    generalize p.spinGroups = rs at s3 h
    induction s3 with
    | nil => exact .nil
    | @cons a b _ bs r1 r2 ih =>
      rw [List.pairwise_cons] at h ⊢
      refine ⟨fun z hz => ?_, ih h.2⟩
      obtain ⟨x, hx, hxz⟩ := Relisted.mem ⟨bs, r2, .refl _⟩ hz
      intro hsame
      refine h.1 x hx ?_
      unfold SameSpinParity at hsame ⊢
      rw [r1.spin, r1.parity, hxz.spin, hxz.parity]
      exact hsame

end Verif.Endf
