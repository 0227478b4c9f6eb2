import Verif.Spec.Unitarity
import Verif.Props.CompoundSystem

/-!
# Property C74: cross sections respect the limits of unitarity

Here for spin groups and compound systems.
-/

namespace Verif

open Complex

section

variable {option : BoundaryOption} {K : Constants} {channels : List Channel}
  {rs : List Resonance} {E : ℝ} {P S w phi : Fin channels.length → ℝ}

theorem sum_filter_const (p : Channel → Bool) (x : ℝ) (channels : List Channel) :
    ((channels.filter p).length : ℝ) * x
      = ∑ c : Fin channels.length, if p channels[c] then x else 0 := by
  induction channels with
  | nil => simp
  | cons c cs ih =>
    have e : (∑ i : Fin (c :: cs).length, if p (c :: cs)[i] then x else 0)
        = (if p c then x else 0) + ∑ i : Fin cs.length, if p cs[i] then x else 0 :=
      Fin.sum_univ_succ (n := cs.length) (fun i => if p (c :: cs)[i] then x else 0)
    rw [e, ← ih, List.filter_cons]
    split
    · rw [List.length_cons]
      push_cast
      ring
    · ring

theorem unitarityLimit_eq : Spec.unitarityLimit K channels E
    = ∑ c : Fin channels.length,
      if channels[c].isIncident then Spec.incidentFactor K channels E else 0 := by
  rw [← sum_filter_const]
  unfold Spec.unitarityLimit
  congr 3
  exact List.filter_congr fun c _ => (beq_eq_decide _ _).symm

/-- All cross sections of an incident channel together. -/
theorem row_total_le (hP : ∀ i, 0 ≤ P i)
    (hdet : (Spec.levelDenominator option channels rs E P S).det ≠ 0) (c : Fin channels.length) :
    ∑ c', Spec.partialCrossSection (Spec.collision (Spec.tMatrix option channels rs E P S) w phi) w c c'
      + Spec.captureCrossSection (Spec.collision (Spec.tMatrix option channels rs E P S) w phi) c ≤ 4 := by
  have h2 := capture_nonneg (w := w) (phi := phi) hP hdet c
  rw [row_optical]
  generalize Spec.collision (Spec.tMatrix option channels rs E P S) w phi = U at *
  have h3 : normSq (U c c) ≤ 1 := by
    unfold Spec.captureCrossSection at h2
    have := Finset.single_le_sum (f := fun c' => normSq (U c c'))
      (fun c' _ => normSq_nonneg _) (Finset.mem_univ c)
    linarith
  have h5 := abs_re_le_norm (exp (-(I * w c)) * U c c)
  have h6 : ‖exp (-(I * w c)) * U c c‖ ≤ 1 := by
    rw [norm_mul, show -(I * (w c : ℂ)) = ((-w c : ℝ) : ℂ) * I by push_cast; ring,
      norm_exp_ofReal_mul_I, one_mul]
    rw [normSq_eq_norm_sq] at h3
    exact (sq_le_one_iff₀ (norm_nonneg _)).mp h3
  have := (abs_le.mp (h5.trans h6)).1
  linarith

/-- All cross sections of an incident channel that do not lead back to it. -/
theorem row_reaction_le {n : ℕ} (U : Fin n → Fin n → ℂ) (w : Fin n → ℝ) (c : Fin n)
    (out : Fin n → Prop) [DecidablePred out] (hc : ¬ out c) :
    (∑ c', if out c' then Spec.partialCrossSection U w c c' else 0)
      + Spec.captureCrossSection U c ≤ 1 := by
  unfold Spec.captureCrossSection Spec.partialCrossSection
  have : ∀ c', (if out c' then normSq ((if c = c' then exp (I * w c) else 0) - U c c') else 0)
      ≤ normSq (U c c') := by
    intro c'
    split_ifs with h1 h2
    · exact absurd (h2 ▸ h1) hc
    · rw [zero_sub, normSq_neg]
    · exact normSq_nonneg _
  have := Finset.sum_le_sum fun c' (_ : c' ∈ Finset.univ) => this c'
  linarith

/-- A sum of contributions over some reactions. -/
theorem contribution_sum (ids : Finset ReactionID) :
    ∑ id ∈ ids, Spec.contribution option K channels rs E P S w phi id
      = ∑ c : Fin channels.length, if channels[c].isIncident then Spec.incidentFactor K channels E *
        ((∑ c' : Fin channels.length, if channels[c'].reaction ∈ ids then
          Spec.partialCrossSection (Spec.collision (Spec.tMatrix option channels rs E P S) w phi) w c c'
          else 0)
        + if ∃ id ∈ ids, Spec.captureID channels = some id then
          Spec.captureCrossSection (Spec.collision (Spec.tMatrix option channels rs E P S) w phi) c
          else 0) else 0 := by
  unfold Spec.contribution
  rw [Finset.sum_comm]
  refine Finset.sum_congr rfl fun c _ => ?_
  by_cases hc : channels[c].isIncident
  · simp only [hc, if_true]
    rw [Finset.sum_add_distrib, Finset.sum_comm, mul_add, Finset.mul_sum]
    congr 1
    · refine Finset.sum_congr rfl fun c' _ => ?_
      rw [Finset.sum_ite_eq]
      split <;> simp
    · cases hid : Spec.captureID channels with
      | none => simp
      | some x =>
        simp only [Option.some.injEq, Finset.sum_ite_eq, exists_eq_right']
        split <;> simp
  · simp only [if_neg hc, Finset.sum_const_zero]

theorem contribution_total_le (hP : ∀ i, 0 ≤ P i) (hspin : ∀ c ∈ channels, 0 ≤ c.spinFactor)
    (hdet : (Spec.levelDenominator option channels rs E P S).det ≠ 0) (ids : Finset ReactionID) :
    ∑ id ∈ ids, Spec.contribution option K channels rs E P S w phi id
      ≤ 4 * Spec.unitarityLimit K channels E := by
  rw [contribution_sum, unitarityLimit_eq, Finset.mul_sum]
  refine Finset.sum_le_sum fun c _ => ?_
  split
  · rw [mul_comm 4]
    refine mul_le_mul_of_nonneg_left ((add_le_add (Finset.sum_le_sum fun c' _ => ?_) ?_).trans
      (row_total_le (w := w) (phi := phi) hP hdet c)) (incidentFactor_nonneg hspin)
    · split
      · exact le_refl _
      · exact normSq_nonneg _
    · split
      · exact le_refl _
      · exact capture_nonneg hP hdet c
  · simp

theorem contribution_reaction_le (hP : ∀ i, 0 ≤ P i) (hspin : ∀ c ∈ channels, 0 ≤ c.spinFactor)
    (hdet : (Spec.levelDenominator option channels rs E P S).det ≠ 0) (ids : Finset ReactionID)
    (hids : ∀ c ∈ channels, c.isIncident → c.reaction ∉ ids) :
    ∑ id ∈ ids, Spec.contribution option K channels rs E P S w phi id
      ≤ Spec.unitarityLimit K channels E := by
  rw [contribution_sum, unitarityLimit_eq]
  refine Finset.sum_le_sum fun c _ => ?_
  split
  · rename_i hc
    refine (mul_le_mul_of_nonneg_left (?_ : _ ≤ (1 : ℝ)) (incidentFactor_nonneg hspin)).trans_eq (mul_one _)
    refine le_trans (add_le_add (le_refl _) ?_)
      (row_reaction_le (Spec.collision (Spec.tMatrix option channels rs E P S) w phi) w c
        (fun c' => channels[c'].reaction ∈ ids) (hids _ (List.getElem_mem _) hc))
    split
    · exact le_refl _
    · exact capture_nonneg hP hdet c
  · exact le_refl _

end

variable {option : BoundaryOption} {K : Constants} {lib : CoulombLibrary} {E : ℝ}

/-- C74: a spin group adds to no cross section, and to all cross sections together, more than
`4 π/k² g` for each incident channel; and to all cross sections other than those of the incident channels
together no more than `π/k² g` for each incident channel. -/
theorem C74_spin_group {g : SpinGroup} (hg : g.Built) (hspin : ∀ c ∈ g.channels, 0 ≤ c.spinFactor)
    {cache cache' : MatrixCache g.channels.length} {result result' : CrossSectionMap}
    (h : g.evaluate option K lib E cache result = .ok (result', cache')) :
    (∀ id, 0 ≤ (result' id).getD 0 - (result id).getD 0) ∧
    (∀ ids : Finset ReactionID, ∑ id ∈ ids, ((result' id).getD 0 - (result id).getD 0)
      ≤ 4 * Spec.unitarityLimit K g.channels E) ∧
    ∀ ids : Finset ReactionID, (∀ c ∈ g.channels, c.pair.id = c.incident.id → c.reaction ∉ ids) →
      ∑ id ∈ ids, ((result' id).getD 0 - (result id).getD 0) ≤ Spec.unitarityLimit K g.channels E := by
  obtain ⟨P, S, w, phi, hev, hres⟩ := evaluate_ok hg h
  have hd : ∀ id, (result' id).getD 0 - (result id).getD 0 = if id ∈ g.reactions then
      Spec.contribution option K g.channels g.table.resonances E P S w phi id else 0 := by
    intro id
    rw [hres]
    split
    · rw [Option.getD_some]
      ring
    · ring
  have h0 : ∀ id, 0 ≤ Spec.contribution option K g.channels g.table.resonances E P S w phi id :=
    contribution_nonneg hev.nonneg hspin hev.invertible
  have hle : ∀ ids : Finset ReactionID, ∑ id ∈ ids, ((result' id).getD 0 - (result id).getD 0)
      ≤ ∑ id ∈ ids, Spec.contribution option K g.channels g.table.resonances E P S w phi id := by
    intro ids
    refine Finset.sum_le_sum fun id _ => ?_
    rw [hd]
    split
    · exact le_refl _
    · exact h0 id
  refine ⟨fun id => ?_, fun ids => (hle ids).trans (contribution_total_le hev.nonneg hspin
    hev.invertible ids), fun ids hids => (hle ids).trans (contribution_reaction_le hev.nonneg hspin
    hev.invertible ids fun c hc hi => hids c hc (eq_of_beq hi))⟩
  rw [hd]
  split
  · exact h0 id
  · exact le_refl _

open Example in
/-- In the example capture, fission and inelastic scattering together are at most `π/k² g`. -/
example (option : BoundaryOption) (lib : CoulombLibrary) (cache : MatrixCache group.channels.length) :
    ∃ r c, group.evaluate option constants lib 2 cache (fun _ => none) = .ok (r, c) ∧
      ∑ id ∈ {.transition pair.id excited.id, .transition pair.id fissionPair.id,
        .transition pair.id "capture".toList}, (r id).getD 0
        ≤ Real.pi / elastic.waveNumber constants 2 ^ 2 * elastic.spinFactor := by
  obtain ⟨⟨r, c⟩, h⟩ := (evaluates option lib cache (fun _ => none) (fun _ => none)).1
  refine ⟨r, c, h, ?_⟩
  have h1 := (C74_spin_group group_built spinFactor_nonneg h).2.2
    {.transition pair.id excited.id, .transition pair.id fissionPair.id,
      .transition pair.id "capture".toList} (by
      intro c hc hi
      have hc' : c ∈ channels := hc
      simp only [channels, List.mem_cons, List.not_mem_nil, or_false] at hc'
      rcases hc' with rfl | rfl | rfl
      · decide
      · exact absurd hi (by decide)
      · exact absurd hi (by decide))
  simp only [Option.getD_none, sub_zero] at h1
  have h2 : Spec.unitarityLimit constants group.channels 2
      = Real.pi / elastic.waveNumber constants 2 ^ 2 * elastic.spinFactor := by
    have e : (group.channels.filter fun c => decide (c.pair.id = c.incident.id)) = [elastic] := rfl
    unfold Spec.unitarityLimit
    rw [e]
    show ((1 : ℕ) : ℝ) * _ = _
    rw [Nat.cast_one, one_mul]
    rfl
  rw [h2] at h1
  exact h1

/-- C74, compound systems: the limits of the spin groups add up. -/
theorem C74_system {s s' : CompoundSystem} {result result' : CrossSectionMap}
    (hg : ∀ st ∈ s, st.group.Built) (hspin : ∀ st ∈ s, ∀ c ∈ st.group.channels, 0 ≤ c.spinFactor)
    (h : CompoundSystem.evaluate option K lib E s result = .ok (result', s')) :
    (∀ id, 0 ≤ (result' id).getD 0 - (result id).getD 0) ∧
    (∀ ids : Finset ReactionID, ∑ id ∈ ids, ((result' id).getD 0 - (result id).getD 0)
      ≤ 4 * (s.map fun st => Spec.unitarityLimit K st.group.channels E).sum) ∧
    ∀ ids : Finset ReactionID,
      (∀ st ∈ s, ∀ c ∈ st.group.channels, c.pair.id = c.incident.id → c.reaction ∉ ids) →
      ∑ id ∈ ids, ((result' id).getD 0 - (result id).getD 0)
        ≤ (s.map fun st => Spec.unitarityLimit K st.group.channels E).sum := by
  induction s generalizing result s' with
  | nil =>
    cases h
    simp
  | cons st rest ih =>
    obtain ⟨r, cache, rest', h1, h2, -⟩ := evaluate_cons_ok.mp h
    obtain ⟨a1, a2, a3⟩ := C74_spin_group (hg _ List.mem_cons_self) (hspin _ List.mem_cons_self) h1
    obtain ⟨b1, b2, b3⟩ := ih (fun t ht => hg t (List.mem_cons_of_mem _ ht))
      (fun t ht => hspin t (List.mem_cons_of_mem _ ht)) h2
    have e : ∀ ids : Finset ReactionID, ∑ id ∈ ids, ((result' id).getD 0 - (result id).getD 0)
        = ∑ id ∈ ids, ((r id).getD 0 - (result id).getD 0)
          + ∑ id ∈ ids, ((result' id).getD 0 - (r id).getD 0) := by
      intro ids
      rw [← Finset.sum_add_distrib]
      exact Finset.sum_congr rfl fun id _ => by ring
    refine ⟨fun id => ?_, fun ids => ?_, fun ids hids => ?_⟩
    · have := a1 id
      have := b1 id
      linarith
    · rw [e, List.map_cons, List.sum_cons]
      have := a2 ids
      have := b2 ids
      linarith
    · rw [e, List.map_cons, List.sum_cons]
      have := a3 ids (hids _ List.mem_cons_self)
      have := b3 ids fun t ht => hids t (List.mem_cons_of_mem _ ht)
      linarith

end Verif
