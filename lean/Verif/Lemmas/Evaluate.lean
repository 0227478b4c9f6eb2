import Verif.Lemmas.SpinGroup
import Verif.Props.ChannelID

/-!
# What evaluating a spin group returns
-/

namespace Verif

open Complex Matrix

theorem denominator_ne_zero (r : Resonance) (E : ℝ) :
    r.denominator E ≠ 0 ↔ ¬ (r.energy = E ∧ r.eliminated = 0) := by
  rw [not_iff_not]
  constructor
  · intro h
    have h1 := congrArg Complex.re h
    have h2 := congrArg Complex.im h
    simp only [Resonance.denominator, zero_re, zero_im, neg_eq_zero, mul_self_eq_zero] at h1 h2
    exact ⟨by linarith, h2⟩
  · rintro ⟨h1, h2⟩
    apply Complex.ext <;> simp [Resonance.denominator, h1, h2]

section Forms

variable {ι : Type*} [Fintype ι]

theorem imForm_add (A B : Matrix ι ι ℂ) (v : ι → ℂ) : imForm (A + B) v = imForm A v + imForm B v := by
  simp [imForm, add_mulVec, dotProduct_add]

theorem imForm_zero (v : ι → ℂ) : imForm (0 : Matrix ι ι ℂ) v = 0 := by simp [imForm]

theorem imForm_rankOne (a : ι → ℝ) (t : ℂ) (v : ι → ℂ) :
    imForm (Matrix.of fun c c' => (a c : ℂ) * a c' * t) v
      = t.im * normSq (∑ c, (a c : ℂ) * v c) := by
  have : star v ⬝ᵥ (Matrix.of fun c c' => (a c : ℂ) * a c' * t) *ᵥ v
      = t * (star (∑ c, (a c : ℂ) * v c) * ∑ c, (a c : ℂ) * v c) := by
    simp only [dotProduct, mulVec, Matrix.of_apply, Pi.star_apply, star_sum, star_mul',
      Finset.sum_mul, Finset.mul_sum]
    rw [Finset.sum_comm]
    refine Finset.sum_congr rfl fun i _ => Finset.sum_congr rfl fun j _ => ?_
    have : star (a j : ℂ) = (a j : ℂ) := conj_ofReal _
    rw [this]
    ring
  rw [imForm, this]
  have h2 : star (∑ c, (a c : ℂ) * v c) * (∑ c, (a c : ℂ) * v c)
      = ((normSq (∑ c, (a c : ℂ) * v c) : ℝ) : ℂ) := normSq_eq_conj_mul_self.symm
  rw [h2, mul_im, ofReal_re, ofReal_im]
  ring

end Forms

section RMatrix

variable (channels : List Channel) (E : ℝ)

theorem rMatrix_cons (r : Resonance) (rs : List Resonance) :
    Spec.rMatrix channels (r :: rs) E
      = (Matrix.of fun c c' => (Spec.amplitude channels E r c : ℂ) * Spec.amplitude channels E r c'
          * (r.denominator E)⁻¹) + Spec.rMatrix channels rs E := by
  ext i j
  simp only [Spec.rMatrix, Matrix.of_apply, Matrix.add_apply, List.map_cons, List.sum_cons,
    denominator_eq, div_eq_mul_inv]

theorem rMatrix_nil : Spec.rMatrix channels [] E = 0 := by
  ext i j
  simp [Spec.rMatrix]

/-- The imaginary part of the quadratic form of the R-matrix. -/
theorem imForm_rMatrix (rs : List Resonance) (v : Fin channels.length → ℂ) :
    imForm (Spec.rMatrix channels rs E) v = (rs.map fun r => r.eliminated ^ 2 *
      normSq (∑ c, (Spec.amplitude channels E r c : ℂ) * v c) / normSq (r.denominator E)).sum := by
  induction rs with
  | nil => rw [rMatrix_nil, imForm_zero]; rfl
  | cons r rs ih =>
    rw [rMatrix_cons, imForm_add, ih, imForm_rankOne, List.map_cons, List.sum_cons, inv_im]
    congr 1
    simp only [Resonance.denominator]
    ring

theorem imForm_rMatrix_nonneg (rs : List Resonance) (v : Fin channels.length → ℂ) :
    0 ≤ imForm (Spec.rMatrix channels rs E) v := by
  rw [imForm_rMatrix]
  apply List.sum_nonneg
  intro x hx
  obtain ⟨r, _, rfl⟩ := List.mem_map.mp hx
  have := normSq_nonneg (∑ c, (Spec.amplitude channels E r c : ℂ) * v c)
  have := normSq_nonneg (r.denominator E)
  positivity

theorem imForm_rMatrix_zero (rs : List Resonance) (h : ∀ r ∈ rs, r.eliminated = 0)
    (v : Fin channels.length → ℂ) : imForm (Spec.rMatrix channels rs E) v = 0 := by
  rw [imForm_rMatrix]
  apply List.sum_eq_zero
  intro x hx
  obtain ⟨r, hr, rfl⟩ := List.mem_map.mp hx
  simp [h r hr]

theorem rMatrix_transpose (rs : List Resonance) :
    (Spec.rMatrix channels rs E)ᵀ = Spec.rMatrix channels rs E := by
  ext i j
  simp only [Spec.rMatrix, Matrix.transpose_apply, Matrix.of_apply]
  congr 1
  apply List.map_congr_left
  intro r _
  ring

theorem rMatrix_closed (rs : List Resonance) (c : Fin channels.length)
    (hc : channels[c].belowThreshold E) (c' : Fin channels.length) :
    Spec.rMatrix channels rs E c c' = 0 := by
  simp only [Spec.rMatrix, Matrix.of_apply]
  apply List.sum_eq_zero
  intro x hx
  obtain ⟨r, _, rfl⟩ := List.mem_map.mp hx
  have h0 : Spec.amplitude channels E r c = 0 := if_pos hc
  simp [h0]

/-- The real part of the logarithmic derivative. -/
noncomputable def realL (option : BoundaryOption) (S : Fin channels.length → ℝ)
    (c : Fin channels.length) : ℝ :=
  match option with
  | .shiftFactor => 0
  | .constant => S c - channels[c].boundary

theorem logDerivative_eq (option : BoundaryOption) (P S : Fin channels.length → ℝ) :
    Spec.logDerivative option channels P S = fun c => ⟨realL channels option S c, P c⟩ := by
  funext c
  cases option <;> apply Complex.ext <;> simp [Spec.logDerivative, realL]

variable {channels E} {option : BoundaryOption} {rs : List Resonance}
  {P S : Fin channels.length → ℝ}

theorem tMatrix_symm (hdet : (Spec.levelDenominator option channels rs E P S).det ≠ 0)
    (c c' : Fin channels.length) :
    Spec.tMatrix option channels rs E P S c c' = Spec.tMatrix option channels rs E P S c' c := by
  have h := levelMatrix_symm (rMatrix_transpose channels E rs) hdet
  have h2 := congrFun (congrFun h c) c'
  simp only [Matrix.transpose_apply, levelMatrix] at h2
  simp only [Spec.tMatrix, Matrix.of_apply, Spec.levelDenominator]
  rw [← h2]
  ring

/-- Loss of norm in a row of `1 + 2 i T`. -/
theorem tMatrix_norm (hP : ∀ i, 0 ≤ P i)
    (hdet : (Spec.levelDenominator option channels rs E P S).det ≠ 0) (c : Fin channels.length) :
    ∑ c', normSq ((if c = c' then 1 else 0) + 2 * I * Spec.tMatrix option channels rs E P S c c')
      = 1 - 4 * imForm (Spec.rMatrix channels rs E)
          (lossVector (Spec.rMatrix channels rs E) (realL channels option S) P c) := by
  have hdet' := hdet
  rw [Spec.levelDenominator, logDerivative_eq] at hdet'
  rw [← column_norm _ P hP hdet' c]
  refine Finset.sum_congr rfl fun c' _ => ?_
  congr 1
  rw [tMatrix_symm hdet]
  simp only [Spec.tMatrix, Matrix.of_apply, Spec.levelDenominator, levelMatrix, logDerivative_eq,
    eq_comm (a := c)]
  congr 1
  have : (⟨0, 2⟩ : ℂ) = 2 * I := by apply Complex.ext <;> simp
  rw [this]
  ring

theorem tMatrix_closed
    {c : Fin channels.length} (hc : channels[c].belowThreshold E) (c' : Fin channels.length) :
    Spec.tMatrix option channels rs E P S c' c = 0 := by
  simp only [Spec.tMatrix, Matrix.of_apply, Matrix.mul_apply]
  have : ∀ j, Spec.rMatrix channels rs E j c = 0 := by
    intro j
    have := congrFun (congrFun (rMatrix_transpose channels E rs) c) j
    rw [Matrix.transpose_apply] at this
    rw [this]
    exact rMatrix_closed channels E rs c hc j
  simp [this]

end RMatrix

section Accumulate

theorem add_getD (m : CrossSectionMap) (id id' : ReactionID) (x : ℝ) :
    (m.add id x) id' = if id = id' then some ((m id').getD 0 + x) else m id' := by
  unfold CrossSectionMap.add
  by_cases h : id = id'
  · subst h; simp
  · rw [Function.update_of_ne (Ne.symm h), if_neg h]

/-- Accumulating a list of contributions. -/
theorem foldl_add (l : List (ReactionID × ℝ)) (m : CrossSectionMap) (id : ReactionID) :
    (l.foldl (fun m e => m.add e.1 e.2) m) id
      = if id ∈ l.map Prod.fst then
          some ((m id).getD 0 + (l.map fun e => if e.1 = id then e.2 else 0).sum)
        else m id := by
  induction l generalizing m with
  | nil => simp
  | cons e l ih =>
    rw [List.foldl_cons, ih, add_getD]
    have hm : id ∈ (e :: l).map Prod.fst ↔ e.1 = id ∨ id ∈ l.map Prod.fst := by
      rw [List.map_cons, List.mem_cons, eq_comm]
    by_cases h1 : e.1 = id
    · rw [if_pos h1, if_pos (hm.mpr (Or.inl h1)), List.map_cons, List.sum_cons, if_pos h1]
      by_cases h2 : id ∈ l.map Prod.fst
      · rw [if_pos h2, Option.getD_some, add_assoc]
      · have h3 : (l.map fun e => if e.1 = id then e.2 else 0).sum = 0 := by
          apply List.sum_eq_zero
          intro x hx
          obtain ⟨a, ha, rfl⟩ := List.mem_map.mp hx
          rw [if_neg]
          intro h
          exact h2 (List.mem_map.mpr ⟨a, ha, h⟩)
        rw [if_neg h2, h3, add_zero]
    · rw [if_neg h1]
      by_cases h2 : id ∈ l.map Prod.fst
      · rw [if_pos h2, if_pos (hm.mpr (Or.inr h2)), List.map_cons, List.sum_cons, if_neg h1,
          zero_add]
      · rw [if_neg h2, if_neg (fun h => (hm.mp h).elim h1 h2)]

/-- Accumulating several lists one after the other. -/
theorem foldl_foldl_add {α : Type*} (f : α → List (ReactionID × ℝ)) (as : List α)
    (m : CrossSectionMap) :
    as.foldl (fun m a => (f a).foldl (fun m e => m.add e.1 e.2) m) m
      = ((as.map f).flatten).foldl (fun m e => m.add e.1 e.2) m := by
  induction as generalizing m with
  | nil => rfl
  | cons a as ih => simp [ih]

end Accumulate

section Built

/-- A spin group as the constructor leaves it. -/
def SpinGroup.Built (g : SpinGroup) : Prop := makeSpinGroup g.channels g.table = .ok g

theorem SpinGroup.Built.of_make {channels : List Channel} {table : ResonanceTable} {g : SpinGroup}
    (h : makeSpinGroup channels table = .ok g) :
    g.Built ∧ g.channels = channels ∧ g.table = table := by
  have h' := h
  unfold makeSpinGroup at h
  simp only [bind, Except.bind] at h
  split at h
  · cases h
  split at h
  · cases h
  split at h
  · cases h
  split at h
  · cases h
  simp only [pure, Except.pure, Except.ok.injEq] at h
  subst h
  exact ⟨h', rfl, rfl⟩

theorem SpinGroup.Built.incident {g : SpinGroup} (h : g.Built) :
    g.incident = determineIncidentChannels g.channels ∧
      ∃ first rest, g.channels = first :: rest ∧
      g.reactions = g.channels.map Channel.reaction ++
        [.transition first.incident.id "capture".toList] ∧
      g.incident ≠ [] := by
  unfold SpinGroup.Built makeSpinGroup at h
  simp only [bind, Except.bind] at h
  split at h
  · cases h
  rename_i reactions hr
  split at h
  · cases h
  rename_i hv
  split at h
  · cases h
  rename_i hi
  split at h
  · cases h
  rename_i hres
  simp only [pure, Except.pure, Except.ok.injEq] at h
  obtain ⟨channels, reactions', incident, table⟩ := g
  simp only [SpinGroup.mk.injEq, heq_eq_eq, true_and, and_true] at h
  obtain ⟨h1, h2⟩ := h
  subst h1 h2
  refine ⟨rfl, ?_⟩
  cases channels with
  | nil => simp [makeReactionIdentifiers] at hr
  | cons first rest =>
    refine ⟨first, rest, rfl, ?_, ?_⟩
    · simp only [makeReactionIdentifiers, Except.ok.injEq] at hr
      exact hr.symm
    · intro h0
      simp only at h0
      rw [h0] at hi
      simp [verifyIncidentChannels] at hi

theorem captureID_eq {channels : List Channel} {first : Channel} {rest : List Channel}
    (h : channels = first :: rest) :
    Spec.captureID channels = some (.transition first.incident.id "capture".toList) := by
  subst h; rfl

theorem sum_finRange_filter {n : ℕ} (p : Fin n → Bool) (f : Fin n → ℝ) :
    (((List.finRange n).filter p).map f).sum = ∑ i, if p i then f i else 0 := by
  have : ∀ l : List (Fin n), ((l.filter p).map f).sum = (l.map fun i => if p i then f i else 0).sum := by
    intro l
    induction l with
    | nil => rfl
    | cons a l ih =>
      by_cases h : p a
      · simp [List.filter_cons_of_pos h, ih, h]
      · simp [List.filter_cons_of_neg h, ih, h]
  rw [this, ← List.ofFn_eq_map, List.sum_ofFn]

theorem find?_finRange_filter (channels : List Channel) (p : Channel → Bool)
    {first : Fin channels.length} {rest : List (Fin channels.length)}
    (h : (List.finRange channels.length).filter (fun i => p channels[i]) = first :: rest) :
    channels.find? p = some channels[first] := by
  have h1 : ((List.finRange channels.length).map fun i => channels[i]) = channels := by
    have := List.ofFn_get channels
    rw [List.ofFn_eq_map] at this
    exact this
  have h2 : channels.filter p = (first :: rest).map fun i => channels[i] := by
    rw [← h]
    conv_lhs => rw [← h1]
    rw [List.filter_map]
    rfl
  rw [← List.head?_filter, h2]
  rfl

end Built

section Sigma

variable {n : ℕ} (p : Prepared n) (T : Matrix (Fin n) (Fin n) ℂ)

theorem uElement_eq (hT : ∀ c c', T c c' = p.sqrtP c * p.RL c' c * p.sqrtP c') (c c' : Fin n) :
    p.uElement c c' = Spec.collision T p.w p.phi c c' := by
  have e : ∀ i, p.omega i = exp (I * (p.w i - p.phi i)) := by
    intro i
    unfold Prepared.omega
    congr 1
    apply Complex.ext <;> simp
  have e2 : (⟨0, 2⟩ : ℂ) = 2 * I := by apply Complex.ext <;> simp
  rw [Prepared.uElement, Spec.collision, hT, e, e, e2]
  simp only [eq_comm (a := c')]
  ring

theorem sigma_eq (hT : ∀ c c', T c c' = p.sqrtP c * p.RL c' c * p.sqrtP c') (c c' : Fin n) :
    p.sigma c c' = Spec.partialCrossSection (Spec.collision T p.w p.phi) p.w c c' := by
  rw [Prepared.sigma, Spec.partialCrossSection, uElement_eq p T hT]
  have : (⟨0, p.w c⟩ : ℂ) = I * p.w c := by apply Complex.ext <;> simp
  rw [this]
  simp only [eq_comm (a := c')]

theorem foldl_sub (l : List ℝ) (a : ℝ) : l.foldl (fun a b => a - b) a = a - l.sum := by
  induction l generalizing a with
  | nil => simp
  | cons b l ih => simp [ih]; ring

theorem capture_eq (hT : ∀ c c', T c c' = p.sqrtP c * p.RL c' c * p.sqrtP c') (c : Fin n) :
    p.capture c = Spec.captureCrossSection (Spec.collision T p.w p.phi) c := by
  rw [Prepared.capture, foldl_sub, List.sum_ofFn, Spec.captureCrossSection]
  simp only [uElement_eq p T hT]

end Sigma

theorem zip_reactions {channels : List Channel} (last : ReactionID)
    (f : Fin channels.length → ℝ) (x : ℝ) :
    (channels.map Channel.reaction ++ [last]).zip (List.ofFn f ++ [x])
      = (List.ofFn fun i : Fin channels.length => (channels[i].reaction, f i)) ++ [(last, x)] := by
  rw [List.zip_append (by simp)]
  congr 1
  apply List.ext_getElem
  · simp
  · intro i h1 h2
    simp

/-- Everything `evaluate` returns. -/
theorem evaluate_ok {option : BoundaryOption} {K : Constants} {lib : CoulombLibrary}
    {g : SpinGroup} (hg : g.Built) {E : ℝ} {cache cache' : MatrixCache g.channels.length}
    {result result' : CrossSectionMap}
    (h : g.evaluate option K lib E cache result = .ok (result', cache')) :
    ∃ P S w phi, Spec.Evaluable option K lib g.channels g.table.resonances E P S w phi ∧
      ∀ id, result' id = if id ∈ g.reactions then
        some ((result id).getD 0
          + Spec.contribution option K g.channels g.table.resonances E P S w phi id)
        else result id := by
  unfold SpinGroup.evaluate at h
  simp only [bind, Except.bind] at h
  cases hp : g.prepare option K lib E cache with
  | error e => rw [hp] at h; cases h
  | ok pc =>
    obtain ⟨p, cache₁⟩ := pc
    rw [hp] at h
    simp only [pure, Except.pure, Except.ok.injEq, Prod.mk.injEq] at h
    obtain ⟨h, rfl⟩ := h
    obtain ⟨hP, hw, hphi, hnn, hrl, hRL, first, rest, hinc, hk, hfac⟩ := prepare_ok.mp hp
    obtain ⟨hwid, hpole, S, hS, hdet, hc⟩ := rlmatrix_ok.mp hrl
    obtain ⟨hincdef, chan, chans, hch, hreac, _⟩ := hg.incident
    have hfind := find?_finRange_filter g.channels Channel.isIncident (first := first) (rest := rest)
      (by rw [← hinc, hincdef]; rfl)
    refine ⟨p.P, S, p.w, p.phi, ⟨hP, hS, hw, hphi, hnn, hwid, ?_, hdet, ⟨_, hfind, hk⟩⟩, ?_⟩
    · intro r hr
      exact (denominator_ne_zero r E).mp (hpole r hr)
    · intro id
      set T := Spec.tMatrix option g.channels g.table.resonances E p.P S with hT
      have hT' : ∀ c c', T c c' = p.sqrtP c * p.RL c' c * p.sqrtP c' := by
        intro c c'
        rw [hT, tMatrix_symm hdet, hRL, hc]
        simp only [Spec.tMatrix, Matrix.of_apply, Prepared.sqrtP]
        ring
      have hfac' : p.factor = Spec.incidentFactor K g.channels E := by
        rw [hfac, Spec.incidentFactor, hfind]
        simp only [pow_two]
      have hlist : ∀ c, g.reactions.zip (p.crossSections c)
          = (List.ofFn fun i : Fin g.channels.length =>
              (g.channels[i].reaction, p.factor * p.sigma c i)) ++
            [(.transition chan.incident.id "capture".toList, p.factor * p.capture c)] := by
        intro c
        rw [hreac, Prepared.crossSections, List.map_append, List.map_ofFn, List.map_singleton]
        exact zip_reactions _ _ _
      rw [← h]
      unfold SpinGroup.processIncidentChannel
      rw [foldl_foldl_add (fun c => g.reactions.zip (p.crossSections c)), foldl_add]
      have hmem : id ∈ ((g.incident.map fun c => g.reactions.zip (p.crossSections c)).flatten).map
          Prod.fst ↔ id ∈ g.reactions := by
        have hfst : ∀ c, (g.reactions.zip (p.crossSections c)).map Prod.fst = g.reactions := by
          intro c
          apply List.map_fst_zip
          rw [hreac]
          simp [Prepared.crossSections]
        rw [hinc]
        simp only [List.map_flatten, List.map_map, List.mem_flatten, List.mem_map,
          Function.comp_apply, hfst]
        constructor
        · rintro ⟨l, ⟨_, _, rfl⟩, hid⟩
          exact hid
        · intro hid
          exact ⟨_, ⟨first, by simp, rfl⟩, hid⟩
      by_cases hid : id ∈ g.reactions
      · rw [if_pos (hmem.mpr hid), if_pos hid]
        congr 2
        simp only [List.map_flatten, List.sum_flatten, List.map_map]
        rw [hincdef]
        unfold determineIncidentChannels
        rw [sum_finRange_filter, Spec.contribution]
        refine Finset.sum_congr rfl fun c _ => ?_
        congr 1
        simp only [Function.comp_apply]
        rw [hlist, List.map_append, List.sum_append, List.map_ofFn, List.sum_ofFn,
          List.map_singleton, List.sum_singleton]
        simp only [Function.comp_apply, sigma_eq p T hT', capture_eq p T hT', hfac',
          captureID_eq hch, Option.some.injEq]
        rfl
      · rw [if_neg (fun hh => hid (hmem.mp hh)), if_neg hid]

/-- When `evaluate` succeeds. -/
theorem evaluate_ok_of {option : BoundaryOption} {K : Constants} {lib : CoulombLibrary}
    {g : SpinGroup} (hg : g.Built) {E : ℝ} {P S w phi : Fin g.channels.length → ℝ}
    (h : Spec.Evaluable option K lib g.channels g.table.resonances E P S w phi)
    (cache : MatrixCache g.channels.length) (result : CrossSectionMap) :
    ∃ r, g.evaluate option K lib E cache result = .ok r := by
  obtain ⟨hincdef, _, _, _, _, hne⟩ := hg.incident
  obtain ⟨hP, hS, hw, hphi, hnn, hwid, hpole, hdet, chan, hfind, hk⟩ := h
  cases hinc : g.incident with
  | nil => exact absurd hinc hne
  | cons first rest =>
    have hfind' := find?_finRange_filter g.channels Channel.isIncident (first := first)
      (rest := rest) (by rw [← hinc, hincdef]; rfl)
    rw [hfind, Option.some.injEq] at hfind'
    subst hfind'
    have hrl := (rlmatrix_ok (option := option) (K := K) (lib := lib) (cache := cache)
      (P := P) (E := E)).mpr ⟨hwid, fun r hr => (denominator_ne_zero r E).mpr (hpole r hr), S, hS,
        hdet, rfl⟩
    have hprep := (prepare_ok (p := ⟨P, w, phi, _, _⟩)).mpr
      ⟨hP, hw, hphi, hnn, hrl, rfl, first, rest, hinc, hk, rfl⟩
    unfold SpinGroup.evaluate
    rw [hprep]
    exact ⟨_, rfl⟩

/-- The values of the channel functions are determined by the energy. -/
theorem Evaluable_unique {option : BoundaryOption} {K : Constants} {lib : CoulombLibrary}
    {channels : List Channel} {rs : List Resonance} {E : ℝ}
    {P S w phi P' S' w' phi' : Fin channels.length → ℝ}
    (h : Spec.Evaluable option K lib channels rs E P S w phi)
    (h' : Spec.Evaluable option K lib channels rs E P' S' w' phi') :
    P = P' ∧ w = w' ∧ phi = phi' ∧ (option = .constant → S = S') := by
  refine ⟨?_, ?_, ?_, ?_⟩
  · funext i; simpa using (h.penetrability i).symm.trans (h'.penetrability i)
  · funext i; simpa using (h.coulomb i).symm.trans (h'.coulomb i)
  · funext i; simpa using (h.phase i).symm.trans (h'.phase i)
  · intro ho
    funext i
    simpa using (h.shiftFactor ho i).symm.trans (h'.shiftFactor ho i)

theorem Evaluable_contribution {option : BoundaryOption} {K : Constants} {lib : CoulombLibrary}
    {channels : List Channel} {rs : List Resonance} {E : ℝ}
    {P S w phi P' S' w' phi' : Fin channels.length → ℝ}
    (h : Spec.Evaluable option K lib channels rs E P S w phi)
    (h' : Spec.Evaluable option K lib channels rs E P' S' w' phi') (id : ReactionID) :
    Spec.contribution option K channels rs E P S w phi id
      = Spec.contribution option K channels rs E P' S' w' phi' id := by
  obtain ⟨rfl, rfl, rfl, hS⟩ := Evaluable_unique h h'
  cases option with
  | shiftFactor => rfl
  | constant => rw [hS rfl]

end Verif
