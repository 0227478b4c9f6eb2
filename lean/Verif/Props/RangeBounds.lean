import Verif.Props.Order

/-!
# Property C95: the bounds of a range only decide where it answers
-/

namespace Verif.Endf

open Spec

variable {K : Constants} {lib : CoulombLibrary} {tables : InterpolationLibrary} {reactions : ReactionLibrary}
  {initialBreitWigner : Channel → Verif.BreitWigner.Cache}
  {initial : (g : SpinGroup) → MatrixCache g.channels.length}
  {neutronMass elementaryCharge A E : ℝ} {incident target : Str} {range : Range} {R R' R₁ R₁' : Reconstructor}
  {m m' : ReactionMap}

theorem leaf {α : Type} (x : Outcome α) (f : α → SystemVariant) (lower upper l u : ℝ) :
    (x >>= fun s => pure ⟨l, u, f s⟩ : Outcome Reconstructor) =
      Except.map (fun R => ⟨l, u, R.system⟩) (x >>= fun s => pure ⟨lower, upper, f s⟩ : Outcome Reconstructor) := by
  cases x <;> rfl

/-- Other bounds: the same compound system. -/
theorem fromENDF_bounds (hc : ∀ p, range.parameters ≠ .unresolvedConstant p) (l u : ℝ) :
    fromENDF K lib tables reactions initialBreitWigner initial neutronMass elementaryCharge incident target
        { range with lower := l, upper := u } =
      Except.map (fun R => ⟨l, u, R.system⟩) (fromENDF K lib tables reactions initialBreitWigner initial
        neutronMass elementaryCharge incident target range) := by
  obtain ⟨lower, upper, type, representation, naps, radius, parameters⟩ := range
  unfold fromENDF
  dsimp only at hc ⊢
  cases makeChannelRadiusTable tables radius with
  | error e => rfl
  | ok nro =>
    rw [Old.ok_bind, Old.ok_bind]
    split_ifs
    · cases parameters <;> first | rfl | exact leaf _ _ _ _ _ _
    · cases parameters <;> first | rfl | exact leaf _ _ _ _ _ _
    · cases parameters <;> first | rfl | exact leaf _ _ _ _ _ _
    · cases parameters with
      | rmatrixLimited p =>
        dsimp only
        cases p.pairs with
        | nil => rfl
        | cons first rest =>
          dsimp only
          split_ifs <;> first | rfl | exact leaf _ _ _ _ _ _
      | _ => rfl
    · rfl
    · cases parameters with
      | unresolvedConstant p => exact absurd rfl (hc p)
      | unresolvedFission p => exact leaf _ _ _ _ _ _
      | unresolvedDependent p =>
        exact leaf (makeLegacyUnresolvedCompoundSystem UnresolvedDependentJ.spin (dependentTable tables)
          [lower, upper] neutronMass incident target nro naps p) _ _ _ _ _
      | _ => rfl
    · rfl

/-- The cross sections that are reported, without the state of the caches. -/
noncomputable def reported (K : Constants) (lib : CoulombLibrary) (R : Reconstructor) (E : ℝ) :
    Outcome ReactionMap := Except.map Prod.fst (R.call K lib E)

/-- The part of a grid from `l` to `u`. -/
noncomputable def gridWithin (K : Constants) (lib : CoulombLibrary) (fuel : ℕ) (R : Reconstructor)
    (l u : ℝ) : Outcome (Option (List ℝ)) :=
  Except.map (Option.map (List.filter fun e => l ≤ e ∧ e ≤ u)) (R.grid K lib fuel)

theorem bounds_of (hc : ∀ p, range.parameters ≠ .unresolvedConstant p)
    (hR : fromENDF K lib tables reactions initialBreitWigner initial neutronMass elementaryCharge incident
      target range = .ok R) : R.lower = range.lower ∧ R.upper = range.upper := by
  have := fromENDF_bounds (K := K) (lib := lib) (tables := tables) (reactions := reactions)
    (initialBreitWigner := initialBreitWigner) (initial := initial) (neutronMass := neutronMass)
    (elementaryCharge := elementaryCharge) (incident := incident) (target := target) hc range.lower
    range.upper
  rw [hR] at this
  have := Except.ok.inj this
  rw [this]
  exact ⟨rfl, rfl⟩

/-- C95: other bounds of a range are accepted if and only if the bounds are, the cross sections within both
bounds are the same, and so are the grids within both bounds. -/
theorem C95 (hc : ∀ p, range.parameters ≠ .unresolvedConstant p) (l u : ℝ)
    (hR : fromENDF K lib tables reactions initialBreitWigner initial neutronMass elementaryCharge incident
      target range = .ok R) :
    ∃ R', fromENDF K lib tables reactions initialBreitWigner initial neutronMass elementaryCharge incident
        target { range with lower := l, upper := u } = .ok R' ∧
      R'.isResolved = R.isResolved ∧
      (∀ E, range.lower ≤ E ∧ E ≤ range.upper → l ≤ E ∧ E ≤ u → reported K lib R' E = reported K lib R E) ∧
      ∀ fuel, gridWithin K lib fuel R l u = gridWithin K lib fuel R' range.lower range.upper := by
  have hb := bounds_of hc hR
  refine ⟨⟨l, u, R.system⟩, by rw [fromENDF_bounds hc, hR]; rfl, rfl, fun E h1 h2 => ?_, fun fuel => ?_⟩
  · unfold reported Reconstructor.call
    dsimp only
    rw [if_pos h2, if_pos (by rw [hb.1, hb.2]; exact h1)]
    cases R.system.evaluate K lib E <;> rfl
  · unfold gridWithin Reconstructor.grid
    dsimp only
    rw [hb.1, hb.2]
    cases R.system.grid K lib fuel with
    | error e => rfl
    | ok g =>
      cases g with
      | none => rfl
      | some g =>
        refine congrArg (fun x => Except.ok (some x)) ?_
        rw [List.filter_filter, List.filter_filter]
        exact List.filter_congr fun e _ => Bool.and_comm _ _

/-- C95: bounds that are not accepted are not accepted anywhere. -/
theorem C95_refused (hc : ∀ p, range.parameters ≠ .unresolvedConstant p) (l u : ℝ) {e : Failure}
    (hR : fromENDF K lib tables reactions initialBreitWigner initial neutronMass elementaryCharge incident
      target range = .error e) :
    fromENDF K lib tables reactions initialBreitWigner initial neutronMass elementaryCharge incident target
      { range with lower := l, upper := u } = .error e := by
  rw [fromENDF_bounds hc, hR]
  rfl

theorem sorted_split {g : List ℝ} {c : ℝ} (h : g.Pairwise (· < ·)) (hc : c ∉ g) :
    g = g.filter (fun e => e ≤ c) ++ g.filter fun e => c ≤ e := by
  induction g with
  | nil => rfl
  | cons a g ih =>
    rw [List.pairwise_cons] at h
    rw [List.mem_cons, not_or] at hc
    rcases lt_or_gt_of_ne hc.1 with hca | hca
    · have h1 : g.filter (fun e => e ≤ c) = [] := by
        rw [List.filter_eq_nil_iff]
        intro e he
        have := h.1 e he
        simp only [decide_eq_true_eq, not_le]
        linarith
      have h2 : g.filter (fun e => c ≤ e) = g := by
        rw [List.filter_eq_self]
        intro e he
        have := h.1 e he
        simp only [decide_eq_true_eq]
        linarith
      rw [List.filter_cons_of_neg (by simpa using hca), List.filter_cons_of_pos (by simpa using hca.le), h1, h2]
      rfl
    · rw [List.filter_cons_of_pos (by simpa using hca.le), List.filter_cons_of_neg (by simpa using hca),
        List.cons_append, ← ih h.2 hc.2]

/-- C95: a range that is split at an energy `c` gives the same cross sections in both parts as before, and
the grids of the parts are the parts of the grid. -/
theorem C95_split (hc : ∀ p, range.parameters ≠ .unresolvedConstant p) {c : ℝ}
    (hl : range.lower ≤ c) (hu : c ≤ range.upper)
    (hR : fromENDF K lib tables reactions initialBreitWigner initial neutronMass elementaryCharge incident
      target range = .ok R) :
    ∃ below above, fromENDF K lib tables reactions initialBreitWigner initial neutronMass elementaryCharge
        incident target { range with upper := c } = .ok below ∧
      fromENDF K lib tables reactions initialBreitWigner initial neutronMass elementaryCharge
        incident target { range with lower := c } = .ok above ∧
      (∀ E, range.lower ≤ E → E ≤ c → reported K lib below E = reported K lib R E) ∧
      (∀ E, c ≤ E → E ≤ range.upper → reported K lib above E = reported K lib R E) ∧
      ∀ fuel g, R.grid K lib fuel = .ok (some g) → ∃ g₁ g₂, below.grid K lib fuel = .ok (some g₁) ∧
        above.grid K lib fuel = .ok (some g₂) ∧ (∀ e, e ∈ g ↔ e ∈ g₁ ∨ e ∈ g₂) ∧
        (g.Pairwise (· < ·) → c ∉ g → g = g₁ ++ g₂) := by
  obtain ⟨below, b1, -, b2, -⟩ := C95 hc range.lower c hR
  obtain ⟨above, a1, -, a2, -⟩ := C95 hc c range.upper hR
  refine ⟨below, above, b1, a1, fun E h1 h2 => b2 E ⟨h1, h2.trans hu⟩ ⟨h1, h2⟩,
    fun E h1 h2 => a2 E ⟨hl.trans h1, h2⟩ ⟨h1, h2⟩, fun fuel g hg => ?_⟩
  have hb := bounds_of hc hR
  rw [fromENDF_bounds hc, hR] at b1 a1
  obtain rfl := Except.ok.inj b1
  obtain rfl := Except.ok.inj a1
  unfold Reconstructor.grid at hg ⊢
  dsimp only at hg ⊢
  cases hG : R.system.grid K lib fuel with
  | error e =>
    rw [hG] at hg
    cases hg
  | ok G =>
    rw [hG] at hg
    cases G with
    | none => cases hg
    | some G =>
      have hg := Option.some.inj (Except.ok.inj hg)
      rw [hb.1, hb.2] at hg
      refine ⟨_, _, rfl, rfl, fun e => ?_, fun hs hcg => ?_⟩
      · rw [← hg]
        simp only [List.mem_filter, decide_eq_true_eq]
        constructor
        · rintro ⟨h1, h2, h3⟩
          rcases le_total e c with h | h
          · exact .inl ⟨h1, h2, h⟩
          · exact .inr ⟨h1, h, h3⟩
        · rintro (⟨h1, h2, h3⟩ | ⟨h1, h2, h3⟩)
          · exact ⟨h1, h2, h3.trans hu⟩
          · exact ⟨h1, hl.trans h2, h3⟩
      · conv_lhs => rw [sorted_split hs hcg]
        rw [← hg, List.filter_filter, List.filter_filter]
        refine congrArg₂ _ (List.filter_congr fun e _ => ?_) (List.filter_congr fun e _ => ?_)
        · rw [← Bool.decide_and, decide_eq_decide]
          exact ⟨fun h => ⟨h.2.1, h.1⟩, fun h => ⟨h.2, h.1, h.2.trans hu⟩⟩
        · rw [← Bool.decide_and, decide_eq_decide]
          exact ⟨fun h => ⟨h.1, h.2.2⟩, fun h => ⟨h.1, hl.trans h.1, h.2⟩⟩

end Verif.Endf
