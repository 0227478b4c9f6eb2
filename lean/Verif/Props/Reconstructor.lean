import Verif.Model.Reconstructor
import Verif.Props.CompoundSystem
import Verif.Props.LegacyResolvedMore
import Verif.Props.LegacyResolvedExamples
import Verif.Props.UnresolvedGrid

/-!
# Property C41 (and C23 for reconstructors)
-/

namespace Verif

/-- A compound system as its constructor leaves it. -/
def SystemVariant.Constructed : SystemVariant → Prop
  | .singleLevel s => ∃ groups, LegacySystem.make BreitWigner.SpinGroup.channel groups = .ok s
  | .multiLevel s => ∃ groups, LegacySystem.make BreitWigner.SpinGroup.channel groups = .ok s
  | .shiftFactor s => (∀ st ∈ s, st.group.Built) ∧ ∃ groups, makeCompoundSystem groups = .ok s
  | .constant s => (∀ st ∈ s, st.group.Built) ∧ ∃ groups, makeCompoundSystem groups = .ok s
  | .unresolved s => ∃ groups, LegacySystem.make Unresolved.SpinGroup.channel groups = .ok s

/-- The same compound system up to what its spin groups remember of earlier evaluations. -/
inductive SystemVariant.Same : SystemVariant → SystemVariant → Prop
  | singleLevel {s t : LegacySystem BreitWigner.SpinGroup} :
      s.groups.map BreitWigner.content = t.groups.map BreitWigner.content → s.lmax = t.lmax →
      Same (.singleLevel s) (.singleLevel t)
  | multiLevel {s t : LegacySystem BreitWigner.SpinGroup} :
      s.groups.map BreitWigner.content = t.groups.map BreitWigner.content → s.lmax = t.lmax →
      Same (.multiLevel s) (.multiLevel t)
  | shiftFactor {s t : CompoundSystem} : s.map GroupState.group = t.map GroupState.group →
      Same (.shiftFactor s) (.shiftFactor t)
  | constant {s t : CompoundSystem} : s.map GroupState.group = t.map GroupState.group →
      Same (.constant s) (.constant t)
  | unresolved (s : LegacySystem Unresolved.SpinGroup) : Same (.unresolved s) (.unresolved s)

/-- The states of a reconstructor after some calls; a call that fails may change what the spin groups
remember. -/
inductive Reconstructor.Reachable (K : Constants) (lib : CoulombLibrary) (r : Reconstructor) :
    Reconstructor → Prop
  | start : Reachable K lib r r
  | call {t t' : Reconstructor} {E : ℝ} {m : ReactionMap} : Reachable K lib r t →
      t.call K lib E = .ok (m, t') → Reachable K lib r t'
  | failed {t t' : Reconstructor} {E : ℝ} {e : Failure} : Reachable K lib r t →
      t.call K lib E = .error e → t'.lower = t.lower → t'.upper = t.upper →
      t'.system.Same t.system → Reachable K lib r t'

section

variable {K : Constants} {lib : CoulombLibrary}

namespace SystemVariant

theorem Same.refl (s : SystemVariant) : s.Same s := by
  cases s with
  | singleLevel => exact .singleLevel rfl rfl
  | multiLevel => exact .multiLevel rfl rfl
  | shiftFactor => exact .shiftFactor rfl
  | constant => exact .constant rfl
  | unresolved => exact .unresolved _

theorem Same.trans {s t u : SystemVariant} (h : s.Same t) (h' : t.Same u) : s.Same u := by
  cases h with
  | singleLevel h1 h2 =>
    cases h' with
    | singleLevel h3 h4 => exact .singleLevel (h1.trans h3) (h2.trans h4)
  | multiLevel h1 h2 =>
    cases h' with
    | multiLevel h3 h4 => exact .multiLevel (h1.trans h3) (h2.trans h4)
  | shiftFactor h1 =>
    cases h' with
    | shiftFactor h3 => exact .shiftFactor (h1.trans h3)
  | constant h1 =>
    cases h' with
    | constant h3 => exact .constant (h1.trans h3)
  | unresolved => exact h'

theorem Same.index {s t : SystemVariant} (h : s.Same t) : s.index = t.index := by
  cases h <;> rfl

theorem unresolved_evaluate {E : ℝ} {s s' : LegacySystem Unresolved.SpinGroup} {m m' : LegacyMap}
    (h : s.evaluate K lib Unresolved.SpinGroup.channel (fun g m => g.evaluate K lib E m) E m
      = .ok (m', s')) : s' = s := by
  obtain ⟨m1, first, rest, radius, v, h1, rfl, -⟩ := LegacySystem.evaluate_ok h
  have hg : ∀ (gs gs' : List Unresolved.SpinGroup) (m m1 : LegacyMap),
      LegacySystem.evaluateGroups (fun g m => Unresolved.SpinGroup.evaluate K lib E g m) gs m
        = .ok (m1, gs') → gs' = gs := by
    intro gs
    induction gs with
    | nil =>
      intro gs' m m1 h1
      simp only [LegacySystem.evaluateGroups, Except.ok.injEq, Prod.mk.injEq] at h1
      exact h1.2.symm
    | cons g gs ih =>
      intro gs' m m1 h1
      obtain ⟨m2, g1, rest, k1, k2, rfl⟩ := LegacySystem.evaluateGroups_cons_ok.mp h1
      rw [ih _ _ _ k2]
      congr 1
      unfold Unresolved.SpinGroup.evaluate at k1
      simp only [bind, Except.bind] at k1
      repeat' (split at k1 <;> try (cases k1; done))
      all_goals
        simp only [pure, Except.pure, Except.ok.injEq, Prod.mk.injEq] at k1
        exact k1.2.symm
  rw [hg _ _ _ _ h1]

/-- Everything an evaluation of a compound system does to the system. -/
theorem evaluate_same {s s' : SystemVariant} {E : ℝ} {m : ReactionMap}
    (h : s.evaluate K lib E = .ok (m, s')) : s'.Same s := by
  unfold evaluate at h
  cases s <;> simp only [bind, Except.bind] at h <;> split at h <;> try (cases h; done)
  all_goals
    rename_i v hv
    simp only [pure, Except.pure, Except.ok.injEq, Prod.mk.injEq] at h
    rw [← h.2]
  · obtain ⟨h1, h2⟩ := BreitWigner.evaluate_content (f := .singleLevel) (m' := v.1) (s' := v.2) hv
    exact .singleLevel h1 h2
  · obtain ⟨h1, h2⟩ := BreitWigner.evaluate_content (f := .multiLevel) (m' := v.1) (s' := v.2) hv
    exact .multiLevel h1 h2
  · exact .shiftFactor (evaluate_system_groups (result' := v.1) (s' := v.2) hv).1
  · exact .constant (evaluate_system_groups (result' := v.1) (s' := v.2) hv).1
  · rw [unresolved_evaluate (m' := v.1) (s' := v.2) hv]
    exact .unresolved _

/-- The outcome does not depend on what the spin groups remember. -/
theorem Same.evaluate {s t : SystemVariant} (h : s.Same t) (E : ℝ) :
    s.evaluate K lib E = t.evaluate K lib E := by
  cases h with
  | @singleLevel s t h1 h2 =>
    have := BreitWigner.C23_breitWigner (K := K) (lib := lib) (E := E) (f := .singleLevel) h1 h2
      fun _ => none
    simp only [BreitWigner.evaluate] at this
    simp only [SystemVariant.evaluate, this]
  | @multiLevel s t h1 h2 =>
    have := BreitWigner.C23_breitWigner (K := K) (lib := lib) (E := E) (f := .multiLevel) h1 h2
      fun _ => none
    simp only [BreitWigner.evaluate] at this
    simp only [SystemVariant.evaluate, this]
  | shiftFactor h1 =>
    simp only [SystemVariant.evaluate, (C23_system h1 E (fun _ => none) fun _ => none).1]
  | constant h1 =>
    simp only [SystemVariant.evaluate, (C23_system h1 E (fun _ => none) fun _ => none).1]
  | unresolved => rfl

theorem Same.grid {s t : SystemVariant} (h : s.Same t) (fuel : ℕ) :
    s.grid K lib fuel = t.grid K lib fuel := by
  have hbw : ∀ s t : LegacySystem BreitWigner.SpinGroup,
      s.groups.map BreitWigner.content = t.groups.map BreitWigner.content →
      BreitWigner.grid s = BreitWigner.grid t := by
    intro s t h
    unfold BreitWigner.grid
    generalize s.groups = gs at *
    generalize t.groups = hs at *
    congr 1
    induction gs generalizing hs with
    | nil =>
      cases hs with
      | nil => rfl
      | cons => simp at h
    | cons g gs ih =>
      cases hs with
      | nil => simp at h
      | cons k hs =>
        simp only [List.map_cons, List.cons.injEq] at h
        rw [List.flatMap_cons, List.flatMap_cons, BreitWigner.grid_content h.1, ih hs h.2]
  cases h with
  | singleLevel h1 h2 => simp only [SystemVariant.grid, hbw _ _ h1]
  | multiLevel h1 h2 => simp only [SystemVariant.grid, hbw _ _ h1]
  | shiftFactor h1 => simp only [SystemVariant.grid, CompoundSystem.grid_groups h1]
  | constant h1 => simp only [SystemVariant.grid, CompoundSystem.grid_groups h1]
  | unresolved => rfl

theorem legacy_entry {G : Type} {channel : G → Channel} {step : G → LegacyMap → Outcome (LegacyMap × G)}
    {E : ℝ} {s s' : LegacySystem G} {m m' : LegacyMap}
    (h : s.evaluate K lib channel step E m = .ok (m', s')) : ∃ id, (m' id).isSome := by
  obtain ⟨m1, first, rest, radius, v, -, -, -, -, -, rfl⟩ := LegacySystem.evaluate_ok h
  exact ⟨legacyID (channel first) .elastic, by rw [LegacyMap.add_self]; rfl⟩

theorem rmatrix_entry {option : BoundaryOption} {E : ℝ} {s s' : CompoundSystem}
    {m : CrossSectionMap} (hs : s ≠ []) (hb : ∀ st ∈ s, st.group.Built)
    (h : CompoundSystem.evaluate option K lib E s (fun _ => none) = .ok (m, s')) :
    ∃ id, (m id).isSome := by
  obtain ⟨parts, hp, hv⟩ := C22_system hb h
  cases hp with
  | nil => exact absurd rfl hs
  | @cons st part s parts h1 h2 =>
    obtain ⟨cache, h1⟩ := h1
    have hst := hb st List.mem_cons_self
    obtain ⟨-, first, rest, h3, h4, -⟩ := hst.incident
    obtain ⟨P, S, w, phi, -, h5⟩ := evaluate_ok hst h1
    refine ⟨first.reaction, ?_⟩
    rw [hv, if_pos ⟨part, List.mem_cons_self, by rw [h5, if_pos (by rw [h4, h3]; simp)]; rfl⟩]
    rfl

/-- The map made by a system that has been constructed is not empty. -/
theorem evaluate_entry {s s' : SystemVariant} (hc : s.Constructed) {E : ℝ} {m : ReactionMap}
    (h : s.evaluate K lib E = .ok (m, s')) : ∃ id, m id ≠ none := by
  have hleft : ∀ {m : CrossSectionMap}, (∃ id, (m id).isSome) →
      ∃ id, ReactionMap.ofCrossSections m id ≠ none := by
    rintro m ⟨id, h⟩
    exact ⟨.inl id, Option.isSome_iff_ne_none.mp h⟩
  have hright : ∀ {m : LegacyMap}, (∃ id, (m id).isSome) →
      ∃ id, ReactionMap.ofLegacy m id ≠ none := by
    rintro m ⟨id, h⟩
    exact ⟨.inr id, Option.isSome_iff_ne_none.mp h⟩
  have hne : ∀ {s groups : CompoundSystem}, makeCompoundSystem groups = .ok s → s ≠ [] := by
    rintro s groups h rfl
    unfold makeCompoundSystem at h
    split at h
    · cases h
    rename_i hv
    cases h
    simp [verifySpinGroups] at hv
  unfold evaluate at h
  cases s <;> simp only [bind, Except.bind] at h <;> split at h <;> try (cases h; done)
  all_goals
    rename_i v hv
    simp only [pure, Except.pure, Except.ok.injEq, Prod.mk.injEq] at h
    rw [← h.1]
  · exact hright (legacy_entry (m' := v.1) (s' := v.2) hv)
  · exact hright (legacy_entry (m' := v.1) (s' := v.2) hv)
  · obtain ⟨hb, groups, hg⟩ := hc
    exact hleft (rmatrix_entry (s' := v.2) (hne hg) hb hv)
  · obtain ⟨hb, groups, hg⟩ := hc
    exact hleft (rmatrix_entry (s' := v.2) (hne hg) hb hv)
  · exact hright (legacy_entry (m' := v.1) (s' := v.2) hv)

/-- Every grid that is returned is strictly ascending. -/
theorem grid_sorted {s : SystemVariant} {fuel : ℕ} {points : List ℝ}
    (h : s.grid K lib fuel = .ok (some points)) : points.Pairwise (· < ·) := by
  have hr : ∀ {s : CompoundSystem} {points : List ℝ}, s.grid K lib = .ok points →
      points.Pairwise (· < ·) := by
    intro s points h
    unfold CompoundSystem.grid at h
    simp only [bind, Except.bind] at h
    split at h
    · cases h
    · rw [← Except.ok.inj h]
      exact sortUnique_sorted _
  unfold grid at h
  cases s with
  | singleLevel s =>
    rw [← Option.some.inj (Except.ok.inj h)]
    exact sortUnique_sorted _
  | multiLevel s =>
    rw [← Option.some.inj (Except.ok.inj h)]
    exact sortUnique_sorted _
  | shiftFactor s =>
    simp only [bind, Except.bind] at h
    split at h
    · cases h
    · rename_i p hp
      rw [← Option.some.inj (Except.ok.inj h)]
      exact hr hp
  | constant s =>
    simp only [bind, Except.bind] at h
    split at h
    · cases h
    · rename_i p hp
      rw [← Option.some.inj (Except.ok.inj h)]
      exact hr hp
  | unresolved s =>
    simp only at h
    have hmono : ∀ n ≥ fuel, Unresolved.grid n s = .ok (some points) := by
      intro n hn
      unfold Unresolved.grid at h ⊢
      simp only at h ⊢
      split at h
      · rename_i hl
        rw [if_pos hl]
        exact Unresolved.gridRun_mono hn (by simp) h
      · rename_i hl
        rw [if_neg hl, h]
    by_cases h0 : 0 ∈ Unresolved.energies s ∧ ∃ E ∈ Unresolved.energies s, 0 < E
    · obtain ⟨E, hE, hpos⟩ := h0.2
      obtain ⟨steps, hsteps⟩ := Unresolved.C39_zero s h0.1 hE hpos
      have h1 := hmono (max fuel steps) (le_max_left _ _)
      rw [hsteps _ (le_max_right _ _)] at h1
      cases h1
    · obtain ⟨steps, r, h1, h2, -⟩ := Unresolved.C39_grid s h0
      have h3 := hmono (max fuel steps) (le_max_left _ _)
      rw [h1 _ (le_max_right _ _)] at h3
      rw [← Option.some.inj (Except.ok.inj h3)]
      exact h2

end SystemVariant

namespace Reconstructor

theorem Reachable.same {r t : Reconstructor} (h : Reachable K lib r t) :
    t.lower = r.lower ∧ t.upper = r.upper ∧ t.system.Same r.system := by
  induction h with
  | start => exact ⟨rfl, rfl, .refl _⟩
  | @call t t' E m _ h ih =>
    unfold Reconstructor.call at h
    split at h
    · simp only [bind, Except.bind] at h
      split at h
      · cases h
      rename_i v hv
      simp only [pure, Except.pure, Except.ok.injEq, Prod.mk.injEq] at h
      rw [← h.2]
      exact ⟨ih.1, ih.2.1, (SystemVariant.evaluate_same (m := v.1) (s' := v.2) hv).trans ih.2.2⟩
    · simp only [Except.ok.injEq, Prod.mk.injEq] at h
      rw [← h.2]
      exact ih
  | failed _ _ h1 h2 h3 ih => exact ⟨h1.trans ih.1, h2.trans ih.2.1, h3.trans ih.2.2⟩

/-- C41: inside its closed energy range a reconstructor gives the cross sections of its compound system
(or fails as that does), outside it an empty map, after any sequence of earlier calls. -/
theorem C41_values {r t : Reconstructor} (h : Reachable K lib r t) (E : ℝ) :
    (r.lower ≤ E → E ≤ r.upper →
      (t.call K lib E).map Prod.fst = (r.system.evaluate K lib E).map Prod.fst) ∧
    (E < r.lower ∨ r.upper < E → (t.call K lib E).map Prod.fst = .ok fun _ => none) := by
  obtain ⟨h1, h2, h3⟩ := h.same
  unfold Reconstructor.call
  rw [h1, h2]
  refine ⟨fun h4 h5 => ?_, fun h4 => ?_⟩
  · rw [if_pos ⟨h4, h5⟩, h3.evaluate]
    cases r.system.evaluate K lib E <;> rfl
  · rw [if_neg (by rintro ⟨h5, h6⟩; rcases h4 with h4 | h4 <;> linarith)]
    rfl

/-- C41: a reconstructor for a compound system that its constructor accepted returns an empty map
exactly outside its closed energy range, after any sequence of earlier calls. -/
theorem C41_empty {r t t' : Reconstructor} (hc : r.system.Constructed) (h : Reachable K lib r t)
    {E : ℝ} {m : ReactionMap} (hm : t.call K lib E = .ok (m, t')) :
    (∀ id, m id = none) ↔ E < r.lower ∨ r.upper < E := by
  constructor
  · intro hnone
    by_contra hin
    push Not at hin
    have h1 := (C41_values h E).1 hin.1 hin.2
    rw [hm] at h1
    cases hv : r.system.evaluate K lib E with
    | error e => rw [hv] at h1; cases h1
    | ok v =>
      rw [hv] at h1
      have h2 : m = v.1 := Except.ok.inj h1
      obtain ⟨id, hid⟩ := SystemVariant.evaluate_entry (m := v.1) (s' := v.2) hc hv
      exact hid (h2 ▸ hnone id)
  · intro hout id
    have h1 := (C41_values h E).2 hout
    rw [hm] at h1
    have h2 : m = fun _ => none := Except.ok.inj h1
    rw [h2]

/-- C41: the grid of a reconstructor consists exactly of the points of the grid of its compound system
that lie in its closed energy range, in strictly ascending order, after any sequence of earlier
calls. -/
theorem C41_grid {r t : Reconstructor} (h : Reachable K lib r t) {fuel : ℕ} {points : List ℝ}
    (hg : t.grid K lib fuel = .ok (some points)) :
    ∃ all, r.system.grid K lib fuel = .ok (some all) ∧ points.Pairwise (· < ·) ∧
      ∀ x, x ∈ points ↔ x ∈ all ∧ r.lower ≤ x ∧ x ≤ r.upper := by
  obtain ⟨h1, h2, h3⟩ := h.same
  unfold Reconstructor.grid at hg
  rw [h1, h2, h3.grid] at hg
  simp only [bind, Except.bind] at hg
  split at hg
  · cases hg
  rename_i all hall
  cases all with
  | none => cases hg
  | some all =>
    have hp : (all.filter fun energy => decide (r.lower ≤ energy ∧ energy ≤ r.upper)) = points :=
      Option.some.inj (Except.ok.inj hg)
    refine ⟨all, hall, ?_, fun x => ?_⟩
    · rw [← hp]
      exact (SystemVariant.grid_sorted hall).filter _
    · rw [← hp, List.mem_filter, decide_eq_true_eq]

/-- C41: a reconstructor has a grid exactly when its compound system has. -/
theorem C41_grid_exists {r t : Reconstructor} (h : Reachable K lib r t) (fuel : ℕ) :
    (∃ points, t.grid K lib fuel = .ok (some points)) ↔
      ∃ all, r.system.grid K lib fuel = .ok (some all) := by
  constructor
  · rintro ⟨points, hp⟩
    obtain ⟨all, h1, -⟩ := C41_grid h hp
    exact ⟨all, h1⟩
  · rintro ⟨all, hall⟩
    unfold Reconstructor.grid
    rw [h.same.2.2.grid, hall]
    exact ⟨_, rfl⟩

/-- C41: a reconstructor says that it is for unresolved resonances exactly when its compound system is
one for unresolved resonances. -/
theorem C41_kind (r : Reconstructor) :
    (r.isUnresolved = true ↔ ∃ s, r.system = .unresolved s) ∧ r.isResolved = !r.isUnresolved := by
  obtain ⟨lower, upper, system⟩ := r
  cases system <;>
    simp [isUnresolved, isResolved, SystemVariant.index, SystemVariant.size]

end Reconstructor

end

/-! ## Examples -/

namespace Example

open BreitWigner.Example in
/-- A multi-level system with an s-wave and a p-wave group. -/
noncomputable def reconstructor : Reconstructor :=
  ⟨1, 3, .multiLevel ⟨[sGroup 1 [], pGroup 1 [far]], 1⟩⟩

theorem reconstructor_constructed : reconstructor.system.Constructed :=
  ⟨_, BreitWigner.Example.made 1 1 [] [BreitWigner.Example.far]⟩

/-- Inside the range there is an answer with entries. -/
example (lib : CoulombLibrary) : ∃ m t, reconstructor.call constants lib 2 = .ok (m, t) ∧
    ∃ id, m id ≠ none := by
  obtain ⟨v, -, hv⟩ := BreitWigner.Example.evaluates lib 1 1 fun _ => none
  have h1 : ∃ m t, reconstructor.call constants lib 2 = .ok (m, t) := by
    unfold Reconstructor.call
    rw [if_pos ⟨by norm_num [reconstructor], by norm_num [reconstructor]⟩]
    simp only [reconstructor, SystemVariant.evaluate, bind, Except.bind]
    simp only [BreitWigner.evaluate] at hv
    rw [hv]
    exact ⟨_, _, rfl⟩
  obtain ⟨m, t, h⟩ := h1
  refine ⟨m, t, h, ?_⟩
  by_contra hno
  push Not at hno
  rcases (Reconstructor.C41_empty reconstructor_constructed .start h).mp hno with h | h <;>
    norm_num [reconstructor] at h

/-- Outside the range the map is empty. -/
example (lib : CoulombLibrary) : reconstructor.call constants lib 4 = .ok (fun _ => none, reconstructor) := by
  unfold Reconstructor.call
  rw [if_neg (by norm_num [reconstructor])]

/-- The resonance at 12 lies outside the range: the grid of the system contains it, that of the
reconstructor does not. -/
example (lib : CoulombLibrary) : ∃ points all, reconstructor.grid constants lib 0 = .ok (some points) ∧
    reconstructor.system.grid constants lib 0 = .ok (some all) ∧ 12 ∈ all ∧ 12 ∉ points := by
  have h12 : (12 : ℝ) ∈ BreitWigner.grid ⟨[BreitWigner.Example.sGroup 1 [],
      BreitWigner.Example.pGroup 1 [BreitWigner.Example.far]], 1⟩ := by
    refine (BreitWigner.C40_breitWigner_system _).2 12 |>.mpr
      ⟨BreitWigner.Example.pGroup 1 [BreitWigner.Example.far], by simp, ?_⟩
    unfold BreitWigner.SpinGroup.grid
    rw [mem_sortUnique]
    norm_num [BreitWigner.Example.pGroup, BreitWigner.Example.far, BreitWigner.makeSpinGroup]
  obtain ⟨points, hp⟩ := (Reconstructor.C41_grid_exists (K := constants) (lib := lib)
    (r := reconstructor) .start 0).mpr ⟨_, rfl⟩
  obtain ⟨all, h1, -, h3⟩ := Reconstructor.C41_grid .start hp
  refine ⟨points, all, hp, h1, ?_, fun h => ?_⟩
  · rw [← Option.some.inj (Except.ok.inj h1)]
    exact h12
  · have := ((h3 12).mp h).2.2
    norm_num [reconstructor] at this

end Example

end Verif
