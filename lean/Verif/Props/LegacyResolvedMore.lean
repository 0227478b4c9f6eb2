import Verif.Props.LegacyResolved

/-!
# Properties C33, C34, C36, C23, C40 and C54 for Breit-Wigner resonances
-/

namespace Verif

namespace BreitWigner

section

variable {K : Constants} {lib : CoulombLibrary} {E : ℝ}

/-! ## C34 -/

/-- C34: both formalisms succeed for the same inputs, leave the group in the same state and give the
same cross sections for every reaction but elastic scattering. -/
theorem C34_elastic_only (g : SpinGroup) (m : LegacyMap) :
    (∀ e, evaluate K lib E .multiLevel g m = .error e ↔ evaluate K lib E .singleLevel g m = .error e) ∧
    ∀ m' g', evaluate K lib E .multiLevel g m = .ok (m', g') →
      ∃ m'', evaluate K lib E .singleLevel g m = .ok (m'', g') ∧
        ∀ id, id ≠ legacyID g.channel .elastic → m' id = m'' id := by
  constructor
  · intro e
    simp only [evaluate, SpinGroup.evaluateMLBW]
    cases h : g.evaluateSLBW K lib E m with
    | error e => simp [bind, Except.bind]
    | ok p => simp [bind, Except.bind, pure, Except.pure]
  · intro m' g' h
    obtain ⟨p, q, s, φ, hV, rfl, rfl⟩ := evaluateMLBW_ok h
    exact ⟨_, evaluateSLBW_of hV m, fun id hid => LegacyMap.add_other _ _ hid⟩

/-- C34: for at most one resonance the two formalisms are the same. -/
theorem C34_one_resonance (g : SpinGroup) (h : g.resonances.length ≤ 1) (m : LegacyMap) :
    evaluate K lib E .multiLevel g m = evaluate K lib E .singleLevel g m := by
  cases hs : evaluate K lib E .singleLevel g m with
  | error e => exact ((C34_elastic_only g m).1 e).mpr hs
  | ok v =>
    obtain ⟨m', g'⟩ := v
    obtain ⟨p, q, s, φ, hV, rfl, rfl⟩ := evaluateSLBW_ok hs
    change g.evaluateMLBW K lib E m = _
    rw [evaluateMLBW_of hV]
    congr 2
    have h0 : SpinGroup.crossTerm (stored g E p q s) g.resonances.length = 0 := by
      unfold SpinGroup.crossTerm
      rw [show g.resonances.length - 1 = 0 by omega]
      rfl
    rw [h0, mul_zero]
    have h1 : ∃ x, (slbwMap K g E (components g E p q s φ) m) (legacyID g.channel .elastic) = some x := by
      unfold slbwMap
      have k1 : legacyID g.channel .elastic ≠ legacyID g.channel .capture := fun h =>
        absurd (legacyID_inj h) (by decide)
      have k2 : legacyID g.channel .elastic ≠ legacyID g.channel .fission := fun h =>
        absurd (legacyID_inj h) (by decide)
      split
      · rw [LegacyMap.add_other _ _ k2, LegacyMap.add_other _ _ k1, LegacyMap.add_self]
        exact ⟨_, rfl⟩
      · rw [LegacyMap.add_other _ _ k1, LegacyMap.add_self]
        exact ⟨_, rfl⟩
    obtain ⟨x, hx⟩ := h1
    unfold LegacyMap.add
    rw [hx, Option.getD_some, add_zero, ← hx, Function.update_eq_self]

/-! ## C33 -/

/-- Resonances with widths that are not negative. -/
def NonnegWidths (g : SpinGroup) : Prop :=
  ∀ r ∈ g.resonances, 0 ≤ r.elasticToPenetrability ∧ 0 ≤ r.capture ∧ 0 ≤ r.fission

theorem components_nonneg {g : SpinGroup} {p q s φ : ℝ} (hp : 0 ≤ p) (hw : NonnegWidths g) :
    0 ≤ (components g E p q s φ).capture ∧ 0 ≤ (components g E p q s φ).fission := by
  rw [components_eq]
  constructor
  all_goals
    refine List.sum_nonneg fun x hx => ?_
    obtain ⟨r, hr, rfl⟩ := List.mem_map.mp hx
    obtain ⟨h1, h2, h3⟩ := hw r hr
    have h4 : 0 ≤ r.elasticAt p := mul_nonneg hp h1
    refine div_nonneg (by positivity) ?_
    have e : (E - r.energyPrime s) * (E - r.energyPrime s) + 0.25 * r.totalAt p q * r.totalAt p q
      = (E - r.energyPrime s) ^ 2 + r.totalAt p q ^ 2 / 4 := by ring
    rw [e]
    positivity

/-- C33: with widths and a radius that are not negative, a group adds nothing negative to capture and
fission (or to any other reaction but elastic scattering), in both formalisms. -/
theorem C33_nonneg {f : Formalism} {g g' : SpinGroup} {m m' : LegacyMap}
    (hn : g.channel.type = .neutron) (hR : ∀ R, g.channel.radii.penetrability E = .ok R → 0 ≤ R)
    (hg : 0 ≤ g.channel.spinFactor) (hw : NonnegWidths g)
    (h : evaluate K lib E f g m = .ok (m', g')) (id : LegacyID)
    (hid : id ≠ legacyID g.channel .elastic) : (m id).getD 0 ≤ (m' id).getD 0 := by
  obtain ⟨p, q, s, φ, hV, -, h⟩ := evaluate_values h
  have hp := penetrability_nonneg hn hR hV.penetrability
  have hF : 0 ≤ factor K g E := by
    have h1 : (0 : ℝ) ≤ g.channel.spinFactor := by exact_mod_cast hg
    have h2 := Real.pi_pos
    unfold factor
    have h3 := mul_self_nonneg (g.channel.waveNumber K E)
    positivity
  obtain ⟨h1, h2⟩ := components_nonneg (E := E) (q := q) (s := s) (φ := φ) hp hw
  rw [h id, slbwMap_getD]
  have h3 : cross K E p q s g id f = 0 := by
    cases f
    · rfl
    · simp [cross, hid]
  rw [h3, if_neg hid, Option.getD_none]
  have h4 := mul_nonneg hF h1
  have h5 := mul_nonneg hF h2
  split <;> split <;> linarith

/-- C33, compound systems: capture and fission are not negative. -/
theorem C33_system_nonneg {f : Formalism} {s s' : LegacySystem SpinGroup} {m m' : LegacyMap}
    (hn : ∀ g ∈ s.groups, g.channel.type = .neutron)
    (hR : ∀ g ∈ s.groups, ∀ R, g.channel.radii.penetrability E = .ok R → 0 ≤ R)
    (hg : ∀ g ∈ s.groups, 0 ≤ g.channel.spinFactor) (hw : ∀ g ∈ s.groups, NonnegWidths g)
    (h : s.evaluate K lib SpinGroup.channel (evaluate K lib E f) E m = .ok (m', s')) (id : LegacyID)
    (hid : id.kind ≠ .elastic) : (m id).getD 0 ≤ (m' id).getD 0 := by
  have hne : ∀ c, id ≠ legacyID c .elastic := fun c hc => hid (by rw [hc]; rfl)
  obtain ⟨m1, first', rest', radius, v, h1, -, -, -, -, rfl⟩ := LegacySystem.evaluate_ok h
  obtain ⟨-, fs, hfs, hm1⟩ := LegacySystem.evaluateGroups_sum (channel := SpinGroup.channel)
    (R := fun _ f => 0 ≤ f id) (fun g hg' m m' g' hm => by
      obtain ⟨p, q, s, φ, -, k, -⟩ := evaluate_values hm
      refine ⟨by rw [k], fun id => (m' id).getD 0 - (m id).getD 0, ?_, fun id => by ring⟩
      have := C33_nonneg (hn g hg') (hR g hg') (hg g hg') (hw g hg') hm id (hne _)
      linarith) h1
  rw [LegacyMap.add_other _ _ (hne _), hm1]
  have : 0 ≤ (fs.map fun f => f id).sum := by
    refine List.sum_nonneg fun x hx => ?_
    obtain ⟨f, hf, rfl⟩ := List.mem_map.mp hx
    clear hm1 h h1
    generalize s.groups = gs at hfs
    induction hfs with
    | nil => simp at hf
    | cons h1 _ ih =>
      rcases List.mem_cons.mp hf with rfl | hf
      · exact h1
      · exact ih hf (List.mem_map_of_mem hf)
  linarith

/-! ## C36 -/

/-- C36 as stated: a resonance that has been made reports the penetrability it was given. -/
def C36_claim : Prop :=
  ∀ energy elastic capture fission competition P Q S r,
    makeResonance energy elastic capture fission competition P Q S = .ok r → r.penetrability = .ok P

/-- C36 is false: the member is never initialised. -/
theorem C36_disproved : ¬ C36_claim := by
  intro h
  have := h 1 1 1 1 1 1 1 1 _ (by unfold makeResonance; rw [if_neg (by norm_num)])
  simp [Resonance.penetrability] at this

/-- C36, no resonance can do better: reading the penetrability is always undefined. -/
theorem C36_always_undefined {energy elastic capture fission competition P Q S : ℝ} {r : Resonance}
    (h : makeResonance energy elastic capture fission competition P Q S = .ok r) :
    r.penetrability = .error .undefined := by
  unfold makeResonance at h
  split at h
  · cases h
  · cases h
    rfl

/-- C36, all other accessors. Missing from the full statement: `penetrability()`. -/
theorem C36_partial (energy elastic capture fission competition P Q S : ℝ) :
    ((∃ r, makeResonance energy elastic capture fission competition P Q S = .ok r) ↔ P ≠ 0 ∧ Q ≠ 0) ∧
    ∀ r, makeResonance energy elastic capture fission competition P Q S = .ok r →
      r.energy = energy ∧ r.elastic = elastic ∧ r.capture = capture ∧ r.fission = fission ∧
      r.competition = competition ∧ r.shiftfactor = S ∧
      r.total = elastic + capture + fission + competition ∧
      (∀ p, r.elasticAt p = elastic * (p / P)) ∧ (∀ q, r.competitionAt q = competition * (q / Q)) ∧
      (∀ p q, r.totalAt p q = elastic * (p / P) + capture + fission + competition * (q / Q)) ∧
      r.totalAt P Q = r.total ∧
      (∀ s, r.energyPrime s = energy + (S - s) / (2 * P) * elastic) ∧ r.energyPrime S = energy := by
  constructor
  · unfold makeResonance
    by_cases h : P = 0 ∨ Q = 0
    · rw [if_pos h]
      simp only [reduceCtorEq, exists_false, false_iff]
      tauto
    · rw [if_neg h]
      push Not at h
      simp [h]
  · intro r h
    unfold makeResonance at h
    split at h
    · cases h
    rename_i hPQ
    push Not at hPQ
    obtain ⟨hP, hQ⟩ := hPQ
    cases h
    refine ⟨rfl, rfl, rfl, rfl, rfl, rfl, rfl, fun p => ?_, fun q => ?_, fun p q => ?_, ?_, fun s => ?_, ?_⟩
    · simp only [Resonance.elasticAt]; ring
    · simp only [Resonance.competitionAt]; ring
    · simp only [Resonance.totalAt, Resonance.elasticAt, Resonance.competitionAt]; ring
    · simp only [Resonance.totalAt, Resonance.elasticAt, Resonance.competitionAt, Resonance.total]
      field_simp
    · simp only [Resonance.energyPrime]
      field_simp
    · simp [Resonance.energyPrime]

/-! ## C23 -/

/-- What a group is, without what it remembers of earlier evaluations. -/
def content (g : SpinGroup) : Channel × List Resonance × ℝ := (g.channel, g.resonances, g.qx)

/-- C23, one Breit-Wigner group: whatever it remembers, it gives the same outcome. -/
theorem C23_breitWigner_group (f : Formalism) {g h : SpinGroup} (hc : content g = content h)
    (m : LegacyMap) : evaluate K lib E f g m = evaluate K lib E f h m := by
  obtain ⟨c, r, q, cache⟩ := g
  obtain ⟨c', r', q', cache'⟩ := h
  simp only [content, Prod.mk.injEq] at hc
  obtain ⟨rfl, rfl, rfl⟩ := hc
  cases f <;> rfl

/-- C23, Breit-Wigner systems: two systems with the same contents give the same outcome. -/
theorem C23_breitWigner {f : Formalism} {s t : LegacySystem SpinGroup}
    (hc : s.groups.map content = t.groups.map content) (hl : s.lmax = t.lmax) (m : LegacyMap) :
    s.evaluate K lib SpinGroup.channel (evaluate K lib E f) E m
      = t.evaluate K lib SpinGroup.channel (evaluate K lib E f) E m := by
  have h : ∀ (gs hs : List SpinGroup) (m : LegacyMap), gs.map content = hs.map content →
      LegacySystem.evaluateGroups (evaluate K lib E f) gs m
        = LegacySystem.evaluateGroups (evaluate K lib E f) hs m := by
    intro gs
    induction gs with
    | nil =>
      intro hs m hc
      cases hs with
      | nil => rfl
      | cons => simp at hc
    | cons g gs ih =>
      intro hs m hc
      cases hs with
      | nil => simp at hc
      | cons h hs =>
        simp only [List.map_cons, List.cons.injEq] at hc
        rw [LegacySystem.evaluateGroups, LegacySystem.evaluateGroups,
          C23_breitWigner_group f hc.1 m]
        cases evaluate K lib E f h m with
        | error e => rfl
        | ok v =>
          simp only [bind, Except.bind]
          rw [ih hs v.1 hc.2]
  unfold LegacySystem.evaluate
  rw [h _ _ m hc, hl]

/-- The states of a Breit-Wigner system after some calls; a call that fails may leave anything in the
vectors of the groups. -/
inductive Reachable (K : Constants) (lib : CoulombLibrary) (f : Formalism)
    (s : LegacySystem SpinGroup) : LegacySystem SpinGroup → Prop
  | start : Reachable K lib f s s
  | evaluate {t t' : LegacySystem SpinGroup} {E : ℝ} {m m' : LegacyMap} : Reachable K lib f s t →
      t.evaluate K lib SpinGroup.channel (evaluate K lib E f) E m = .ok (m', t') →
      Reachable K lib f s t'
  | failed {t t' : LegacySystem SpinGroup} {E : ℝ} {m : LegacyMap} {e : Failure} :
      Reachable K lib f s t →
      t.evaluate K lib SpinGroup.channel (BreitWigner.evaluate K lib E f) E m = .error e →
      t'.groups.map content = t.groups.map content → t'.lmax = t.lmax → Reachable K lib f s t'

theorem grid_content {g h : SpinGroup} (hc : content g = content h) : g.grid = h.grid := by
  obtain ⟨c, r, q, cache⟩ := g
  obtain ⟨c', r', q', cache'⟩ := h
  simp only [content, Prod.mk.injEq] at hc
  obtain ⟨rfl, rfl, rfl⟩ := hc
  rfl

theorem evaluate_content {f : Formalism} {s s' : LegacySystem SpinGroup} {m m' : LegacyMap}
    (h : s.evaluate K lib SpinGroup.channel (evaluate K lib E f) E m = .ok (m', s')) :
    s'.groups.map content = s.groups.map content ∧ s'.lmax = s.lmax := by
  obtain ⟨m1, first', rest', radius, v, h1, rfl, -⟩ := LegacySystem.evaluate_ok h
  refine ⟨?_, rfl⟩
  generalize s.groups = gs at h1
  simp only
  generalize first' :: rest' = gs' at h1
  clear h
  induction gs generalizing gs' m with
  | nil =>
    simp only [LegacySystem.evaluateGroups, Except.ok.injEq, Prod.mk.injEq] at h1
    rw [← h1.2]
  | cons g gs ih =>
    obtain ⟨m2, g1, rest, k1, k2, rfl⟩ := LegacySystem.evaluateGroups_cons_ok.mp h1
    obtain ⟨p, q, s, φ, -, rfl, -⟩ := evaluate_values k1
    rw [List.map_cons, List.map_cons, ih _ k2]
    rfl

/-- C23: after any sequence of evaluations, successful or not, at any energies, a Breit-Wigner system
gives the cross sections and the grid it would have given at the start. -/
theorem C23_breitWigner_any_history {f : Formalism} {s t : LegacySystem SpinGroup}
    (h : Reachable K lib f s t) (E : ℝ) (m : LegacyMap) :
    t.evaluate K lib SpinGroup.channel (evaluate K lib E f) E m
      = s.evaluate K lib SpinGroup.channel (evaluate K lib E f) E m ∧
    grid t = grid s := by
  have hg : t.groups.map content = s.groups.map content ∧ t.lmax = s.lmax := by
    induction h with
    | start => exact ⟨rfl, rfl⟩
    | evaluate _ h ih => exact ⟨(evaluate_content h).1.trans ih.1, (evaluate_content h).2.trans ih.2⟩
    | failed _ _ h h' ih => exact ⟨h.trans ih.1, h'.trans ih.2⟩
  refine ⟨C23_breitWigner hg.1 hg.2 m, ?_⟩
  unfold grid
  have : ∀ gs hs : List SpinGroup, gs.map content = hs.map content →
      gs.flatMap SpinGroup.grid = hs.flatMap SpinGroup.grid := by
    intro gs
    induction gs with
    | nil =>
      intro hs hc
      cases hs with
      | nil => rfl
      | cons => simp at hc
    | cons g gs ih =>
      intro hs hc
      cases hs with
      | nil => simp at hc
      | cons h hs =>
        simp only [List.map_cons, List.cons.injEq] at hc
        rw [List.flatMap_cons, List.flatMap_cons, grid_content hc.1, ih hs hc.2]
  rw [this _ _ hg.1]

/-! ## C40 -/

/-- C40, Breit-Wigner groups: the grid is strictly increasing and consists exactly of the positive
resonance energies and the points half a total width away from them. -/
theorem C40_breitWigner_group (g : SpinGroup) :
    g.grid.Pairwise (· < ·) ∧ ∀ x, x ∈ g.grid ↔ ∃ r ∈ g.resonances, 0 < r.energy ∧
      (x = r.energy - (r.elastic + r.capture + r.fission + r.competition) / 2 ∨ x = r.energy ∨
        x = r.energy + (r.elastic + r.capture + r.fission + r.competition) / 2) := by
  refine ⟨sortUnique_sorted _, fun x => ?_⟩
  unfold SpinGroup.grid
  rw [mem_sortUnique, List.mem_flatMap]
  refine exists_congr fun r => and_congr_right fun _ => ?_
  by_cases h : r.energy > 0
  · rw [if_pos h]
    simp only [List.mem_cons, List.not_mem_nil, or_false, Resonance.total]
    rw [show (0.5 : ℝ) = 1 / 2 by norm_num]
    constructor
    · rintro (h1 | h1 | h1)
      · exact ⟨h, .inl (by rw [h1]; ring)⟩
      · exact ⟨h, .inr (.inl h1)⟩
      · exact ⟨h, .inr (.inr (by rw [h1]; ring))⟩
    · rintro ⟨-, h1 | h1 | h1⟩
      · exact .inl (by rw [h1]; ring)
      · exact .inr (.inl h1)
      · exact .inr (.inr (by rw [h1]; ring))
  · rw [if_neg h]
    simp only [List.not_mem_nil, false_iff, not_and]
    exact fun h' => absurd h' h

/-- C40, Breit-Wigner systems: the grid is strictly increasing and consists of the points of the grids
of the groups. -/
theorem C40_breitWigner_system (s : LegacySystem SpinGroup) :
    (grid s).Pairwise (· < ·) ∧ ∀ x, x ∈ grid s ↔ ∃ g ∈ s.groups, x ∈ g.grid := by
  refine ⟨sortUnique_sorted _, fun x => ?_⟩
  unfold grid
  rw [mem_sortUnique, List.mem_flatMap]

end

end BreitWigner

end Verif
