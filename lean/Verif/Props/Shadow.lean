import Verif.Props.UnitarityLimited
import Verif.Props.UnitarityOld

/-!
# Property C115: absorption is accompanied by elastic scattering

If `L` is the limit of unitarity for absorption, all cross sections together, `σ`, and elastic scattering have
`σ² ≤ 4 L σ_el`: a nucleus cannot absorb neutrons without casting a shadow.
-/

namespace Verif

open Complex

namespace Shadow

/-- Total cross section, limit and elastic cross section. -/
structure Holds (a L e : ℝ) : Prop where
  total : 0 ≤ a
  limit : 0 ≤ L
  elastic : 0 ≤ e
  le : a ^ 2 ≤ 4 * L * e

theorem Holds.zero : Holds 0 0 0 := ⟨le_rfl, le_rfl, le_rfl, by norm_num⟩

theorem Holds.add {a b : ℝ} {L M e f : ℝ} (h : Holds a L e) (k : Holds b M f) :
    Holds (a + b) (L + M) (e + f) := by
  refine ⟨add_nonneg h.1 k.1, add_nonneg h.2 k.2, add_nonneg h.3 k.3, ?_⟩
  have h1 : (a * b) ^ 2 ≤ (2 * (L * f + M * e)) ^ 2 := by
    calc (a * b) ^ 2 = a ^ 2 * b ^ 2 := by ring
      _ ≤ (4 * L * e) * (4 * M * f) := mul_le_mul h.4 k.4 (sq_nonneg b)
          (mul_nonneg (mul_nonneg (by norm_num) h.2) h.3)
      _ = 4 * (4 * (L * f) * (M * e)) := by ring
      _ ≤ 4 * (L * f + M * e) ^ 2 := by
          have := sq_nonneg (L * f - M * e)
          have e1 : (L * f + M * e) ^ 2 - 4 * (L * f) * (M * e) = (L * f - M * e) ^ 2 := by ring
          linarith
      _ = (2 * (L * f + M * e)) ^ 2 := by ring
  have h2 : a * b ≤ 2 * (L * f + M * e) := by
    have h3 : 0 ≤ 2 * (L * f + M * e) := by
      have := mul_nonneg h.2 k.3
      have := mul_nonneg k.2 h.3
      linarith
    exact le_of_abs_le (abs_le_of_sq_le_sq h1 h3)
  have h4 := h.4
  have h5 := k.4
  calc (a + b) ^ 2 = a ^ 2 + b ^ 2 + 2 * (a * b) := by ring
    _ ≤ 4 * L * e + 4 * M * f + 2 * (2 * (L * f + M * e)) := by linarith
    _ = 4 * (L + M) * (e + f) := by ring

theorem Holds.scale {a L e c : ℝ} (hc : 0 ≤ c) (h : Holds a L e) : Holds (c * a) (c * L) (c * e) := by
  refine ⟨mul_nonneg hc h.1, mul_nonneg hc h.2, mul_nonneg hc h.3, ?_⟩
  calc (c * a) ^ 2 = c ^ 2 * a ^ 2 := by ring
    _ ≤ c ^ 2 * (4 * L * e) := mul_le_mul_of_nonneg_left h.4 (sq_nonneg c)
    _ = 4 * (c * L) * (c * e) := by ring

theorem Holds.mono {a a' L L' e e' : ℝ} (h : Holds a L e) (h0 : 0 ≤ a') (h1 : a' ≤ a) (h2 : L ≤ L')
    (h3 : e ≤ e') : Holds a' L' e' := by
  refine ⟨h0, h.2.trans h2, h.3.trans h3, ?_⟩
  calc a' ^ 2 ≤ a ^ 2 := pow_le_pow_left₀ h0 h1 2
    _ ≤ 4 * L * e := h.4
    _ ≤ 4 * L' * e' := mul_le_mul (by linarith) h3 h.3 (by linarith [h.2])

theorem Holds.sum {ι : Type*} (s : Finset ι) {a L e : ι → ℝ} (h : ∀ i ∈ s, Holds (a i) (L i) (e i)) :
    Holds (∑ i ∈ s, a i) (∑ i ∈ s, L i) (∑ i ∈ s, e i) := by
  classical
  induction s using Finset.induction_on with
  | empty => simpa using Holds.zero
  | insert i s hi ih =>
    rw [Finset.sum_insert hi, Finset.sum_insert hi, Finset.sum_insert hi]
    exact (h i (Finset.mem_insert_self _ _)).add (ih fun j hj => h j (Finset.mem_insert_of_mem hj))

/-- One channel with the diagonal element `u` of the collision matrix. -/
theorem one {u : ℂ} (hu : u.re ≤ 1) : Holds (2 * (1 - u.re)) 1 (normSq (1 - u)) := by
  refine ⟨by linarith, zero_le_one, normSq_nonneg _, ?_⟩
  rw [normSq_apply, sub_re, one_re, sub_im, one_im]
  have := mul_self_nonneg (0 - u.im)
  calc (2 * (1 - u.re)) ^ 2 = 4 * 1 * ((1 - u.re) * (1 - u.re)) := by ring
    _ ≤ 4 * 1 * ((1 - u.re) * (1 - u.re) + (0 - u.im) * (0 - u.im)) := by linarith

end Shadow

open Shadow

variable {option : BoundaryOption} {K : Constants} {lib : CoulombLibrary} {E : ℝ}

theorem shadow_group {g : SpinGroup} (hg : g.Built) (hspin : ∀ c ∈ g.channels, 0 ≤ c.spinFactor)
    {el : ReactionID} (hel : ∀ c ∈ g.channels, c.pair.id = c.incident.id → c.reaction = el)
    {cache cache' : MatrixCache g.channels.length} {result result' : CrossSectionMap}
    (h : g.evaluate option K lib E cache result = .ok (result', cache')) (ids : Finset ReactionID) :
    Holds (∑ id ∈ ids, ((result' id).getD 0 - (result id).getD 0)) (Spec.unitarityLimit K g.channels E)
      ((result' el).getD 0 - (result el).getD 0) := by
  have hnn := (C74_spin_group hg hspin h).1
  obtain ⟨P, S, w, phi, hev, hres⟩ := evaluate_ok hg h
  have hd : ∀ id, (result' id).getD 0 - (result id).getD 0 = if id ∈ g.reactions then
      Spec.contribution option K g.channels g.table.resonances E P S w phi id else 0 := by
    intro id
    rw [hres]
    split
    · rw [Option.getD_some]
      ring
    · ring
  have h0 : ∀ id, 0 ≤ Spec.contribution option K g.channels g.table.resonances E P S w phi id :=
    contribution_nonneg hev.nonneg hspin hev.invertible
  have hle : ∑ id ∈ ids, ((result' id).getD 0 - (result id).getD 0)
      ≤ ∑ id ∈ ids, Spec.contribution option K g.channels g.table.resonances E P S w phi id := by
    refine Finset.sum_le_sum fun id _ => ?_
    rw [hd]
    split
    · exact le_refl _
    · exact h0 id
  have hf := incidentFactor_nonneg (K := K) (E := E) hspin
  set U := Spec.collision (Spec.tMatrix option g.channels g.table.resonances E P S) w phi with hU
  have hx : ∀ c : Fin g.channels.length, (exp (-(I * w c)) * U c c).re ≤ 1 := by
    intro c
    have h2 := capture_nonneg (w := w) (phi := phi) hev.nonneg hev.invertible c
    rw [← hU] at h2
    have h3 : normSq (U c c) ≤ 1 := by
      unfold Spec.captureCrossSection at h2
      have := Finset.single_le_sum (f := fun c' => normSq (U c c'))
        (fun c' _ => normSq_nonneg _) (Finset.mem_univ c)
      linarith
    have h6 : ‖exp (-(I * w c)) * U c c‖ ≤ 1 := by
      rw [norm_mul, show -(I * (w c : ℂ)) = ((-w c : ℝ) : ℂ) * I by push_cast; ring,
        norm_exp_ofReal_mul_I, one_mul]
      rw [normSq_eq_norm_sq] at h3
      exact (sq_le_one_iff₀ (norm_nonneg _)).mp h3
    exact (le_abs_self _).trans ((abs_re_le_norm _).trans h6)
  have hdiag : ∀ c : Fin g.channels.length, normSq (1 - exp (-(I * w c)) * U c c)
      = Spec.partialCrossSection U w c c := by
    intro c
    unfold Spec.partialCrossSection
    rw [if_pos rfl]
    have e : exp (I * w c) - U c c = exp (I * w c) * (1 - exp (-(I * w c)) * U c c) := by
      rw [mul_sub, ← mul_assoc, ← Complex.exp_add, add_neg_cancel, Complex.exp_zero, mul_one, one_mul]
    rw [e, normSq_mul, normSq_exp_I_mul, one_mul]
  have hmain : Holds (∑ c : Fin g.channels.length, if g.channels[c].isIncident then
        Spec.incidentFactor K g.channels E * (2 * (1 - (exp (-(I * w c)) * U c c).re)) else 0)
      (∑ c : Fin g.channels.length, if g.channels[c].isIncident then Spec.incidentFactor K g.channels E else 0)
      (∑ c : Fin g.channels.length, if g.channels[c].isIncident then
        Spec.incidentFactor K g.channels E * Spec.partialCrossSection U w c c else 0) := by
    refine Holds.sum _ fun c _ => ?_
    split
    · have := (one (hx c)).scale hf
      rwa [mul_one, hdiag] at this
    · exact Holds.zero
  refine hmain.mono (Finset.sum_nonneg fun id _ => hnn id) (hle.trans ?_) (unitarityLimit_eq).ge ?_
  · rw [contribution_sum]
    refine Finset.sum_le_sum fun c _ => ?_
    split
    · refine mul_le_mul_of_nonneg_left ?_ hf
      rw [← row_optical]
      refine add_le_add (Finset.sum_le_sum fun c' _ => ?_) ?_
      · split
        · exact le_refl _
        · exact normSq_nonneg _
      · split
        · exact le_refl _
        · exact capture_nonneg hev.nonneg hev.invertible c
    · exact le_refl _
  · rw [hd]
    have hmem : (∃ c : Fin g.channels.length, g.channels[c].isIncident) → el ∈ g.reactions := by
      rintro ⟨c, hc⟩
      obtain ⟨-, first, rest, h2, h3, -⟩ := hg.incident
      rw [h3, ← hel _ (List.getElem_mem c.2) (eq_of_beq hc)]
      exact List.mem_append_left _ (List.mem_map_of_mem (List.getElem_mem _))
    by_cases hany : ∃ c : Fin g.channels.length, g.channels[c].isIncident
    · rw [if_pos (hmem hany)]
      unfold Spec.contribution
      rw [← hU]
      refine Finset.sum_le_sum fun c _ => ?_
      split
      · rename_i hc
        refine le_add_of_le_of_nonneg ?_ ?_
        · have := Finset.single_le_sum (f := fun c' : Fin g.channels.length => if g.channels[c'].reaction = el then
            Spec.incidentFactor K g.channels E * Spec.partialCrossSection U w c c' else 0) (fun c' _ => by
              split
              · exact mul_nonneg hf (normSq_nonneg _)
              · exact le_refl _) (Finset.mem_univ c)
          exact (le_of_eq (if_pos (hel _ (List.getElem_mem c.2) (eq_of_beq hc))).symm).trans this
        · split
          · exact mul_nonneg hf (capture_nonneg hev.nonneg hev.invertible c)
          · exact le_refl _
      · exact le_refl _
    · have e : ∀ c : Fin g.channels.length, ¬ (g.channels[c].isIncident = true) := fun c hc => hany ⟨c, hc⟩
      simp only [if_neg (e _), Finset.sum_const_zero]
      split
      · exact h0 el
      · exact le_refl _

/-- C115: if `L` is `π/k² g` times the number of incident channels, the square of what a spin group adds to all
cross sections together is at most `4 L` times what it adds to elastic scattering. -/
theorem C115_spin_group {g : SpinGroup} (hg : g.Built) (hspin : ∀ c ∈ g.channels, 0 ≤ c.spinFactor)
    {el : ReactionID} (hel : ∀ c ∈ g.channels, c.pair.id = c.incident.id → c.reaction = el)
    {cache cache' : MatrixCache g.channels.length} {result result' : CrossSectionMap}
    (h : g.evaluate option K lib E cache result = .ok (result', cache')) (ids : Finset ReactionID) :
    (∑ id ∈ ids, ((result' id).getD 0 - (result id).getD 0)) ^ 2
      ≤ 4 * Spec.unitarityLimit K g.channels E * ((result' el).getD 0 - (result el).getD 0) :=
  (shadow_group hg hspin hel h ids).le

theorem shadow_system {s s' : CompoundSystem} {result result' : CrossSectionMap}
    (hg : ∀ st ∈ s, st.group.Built) (hspin : ∀ st ∈ s, ∀ c ∈ st.group.channels, 0 ≤ c.spinFactor)
    {el : ReactionID}
    (hel : ∀ st ∈ s, ∀ c ∈ st.group.channels, c.pair.id = c.incident.id → c.reaction = el)
    (h : CompoundSystem.evaluate option K lib E s result = .ok (result', s')) (ids : Finset ReactionID) :
    Holds (∑ id ∈ ids, ((result' id).getD 0 - (result id).getD 0))
      (s.map fun st => Spec.unitarityLimit K st.group.channels E).sum
      ((result' el).getD 0 - (result el).getD 0) := by
  induction s generalizing result s' with
  | nil =>
    cases h
    simpa using Holds.zero
  | cons st rest ih =>
    obtain ⟨r, cache, rest', h1, h2, -⟩ := evaluate_cons_ok.mp h
    have a := shadow_group (hg _ List.mem_cons_self) (hspin _ List.mem_cons_self) (hel _ List.mem_cons_self)
      h1 ids
    have b := ih (fun t ht => hg t (List.mem_cons_of_mem _ ht)) (fun t ht => hspin t (List.mem_cons_of_mem _ ht))
      (fun t ht => hel t (List.mem_cons_of_mem _ ht)) h2
    have := a.add b
    rw [← Finset.sum_add_distrib] at this
    rw [List.map_cons, List.sum_cons]
    refine this.mono ?_ (le_of_eq (Finset.sum_congr rfl fun id _ => by ring)) le_rfl (by linarith)
    rw [show ∑ id ∈ ids, ((result' id).getD 0 - (result id).getD 0)
      = ∑ id ∈ ids, ((r id).getD 0 - (result id).getD 0 + ((result' id).getD 0 - (r id).getD 0)) from
        Finset.sum_congr rfl fun id _ => by ring]
    exact this.total

/-- C115, compound systems. -/
theorem C115_system {s s' : CompoundSystem} {result result' : CrossSectionMap}
    (hg : ∀ st ∈ s, st.group.Built) (hspin : ∀ st ∈ s, ∀ c ∈ st.group.channels, 0 ≤ c.spinFactor)
    {el : ReactionID}
    (hel : ∀ st ∈ s, ∀ c ∈ st.group.channels, c.pair.id = c.incident.id → c.reaction = el)
    (h : CompoundSystem.evaluate option K lib E s result = .ok (result', s')) (ids : Finset ReactionID) :
    (∑ id ∈ ids, ((result' id).getD 0 - (result id).getD 0)) ^ 2
      ≤ 4 * (s.map fun st => Spec.unitarityLimit K st.group.channels E).sum
        * ((result' el).getD 0 - (result el).getD 0) :=
  (shadow_system hg hspin hel h ids).le

open Verif.Example in
/-- In the example, where elastic scattering has one channel. -/
example (option : BoundaryOption) (lib : CoulombLibrary) (cache : MatrixCache group.channels.length) :
    ∃ r c, group.evaluate option constants lib 2 cache (fun _ => none) = .ok (r, c) ∧
      ∀ ids : Finset ReactionID, (∑ id ∈ ids, (r id).getD 0) ^ 2
        ≤ 4 * (Real.pi / elastic.waveNumber constants 2 ^ 2 * elastic.spinFactor)
          * (r elastic.reaction).getD 0 := by
  obtain ⟨⟨r, c⟩, h⟩ := (evaluates option lib cache (fun _ => none) (fun _ => none)).1
  refine ⟨r, c, h, fun ids => ?_⟩
  have h1 := C115_spin_group group_built spinFactor_nonneg (el := elastic.reaction) (by
      intro c hc hi
      have hc' : c ∈ channels := hc
      simp only [channels, List.mem_cons, List.not_mem_nil, or_false] at hc'
      rcases hc' with rfl | rfl | rfl
      · rfl
      · exact absurd hi (by decide)
      · exact absurd hi (by decide)) h ids
  simp only [Option.getD_none, sub_zero] at h1
  have h2 : Spec.unitarityLimit constants group.channels 2
      = Real.pi / elastic.waveNumber constants 2 ^ 2 * elastic.spinFactor := by
    have e : (group.channels.filter fun c => decide (c.pair.id = c.incident.id)) = [elastic] := rfl
    unfold Spec.unitarityLimit
    rw [e]
    show ((1 : ℕ) : ℝ) * _ = _
    rw [Nat.cast_one, one_mul]
    rfl
  rw [h2] at h1
  exact h1

end Verif
