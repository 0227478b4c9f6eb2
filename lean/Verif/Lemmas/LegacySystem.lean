import Verif.Lemmas.Legacy

/-!
# Lemmas about legacy compound systems
-/

namespace Verif

namespace LegacySystem

variable {G : Type} {channel : G → Channel} {step : G → LegacyMap → Outcome (LegacyMap × G)}

theorem evaluateGroups_cons_ok {g : G} {gs gs' : List G} {m m' : LegacyMap} :
    evaluateGroups step (g :: gs) m = .ok (m', gs') ↔
      ∃ m1 g1 rest, step g m = .ok (m1, g1) ∧ evaluateGroups step gs m1 = .ok (m', rest) ∧
        gs' = g1 :: rest := by
  rw [evaluateGroups]
  simp only [bind, Except.bind]
  cases h : step g m with
  | error e => simp
  | ok p =>
    obtain ⟨m1, g1⟩ := p
    simp only
    cases h2 : evaluateGroups step gs m1 with
    | error e =>
      simp only [Except.ok.injEq, Prod.mk.injEq, reduceCtorEq, false_iff]
      rintro ⟨r', c', rest', ⟨rfl, rfl⟩, h3, -⟩
      rw [h2] at h3
      cases h3
    | ok q =>
      obtain ⟨m2, rest⟩ := q
      simp only [pure, Except.pure, Except.ok.injEq, Prod.mk.injEq]
      constructor
      · rintro ⟨rfl, rfl⟩
        exact ⟨m1, g1, rest, ⟨rfl, rfl⟩, h2, rfl⟩
      · rintro ⟨r', c', rest', ⟨rfl, rfl⟩, h3, rfl⟩
        rw [h2] at h3
        simp only [Except.ok.injEq, Prod.mk.injEq] at h3
        exact ⟨h3.1, by rw [h3.2]⟩

/-- The groups add what each of them contributes. -/
theorem evaluateGroups_sum {R : G → (LegacyID → ℝ) → Prop} {gs gs' : List G} {m m' : LegacyMap}
    (hstep : ∀ g ∈ gs, ∀ m m' g', step g m = .ok (m', g') →
      channel g' = channel g ∧ ∃ f, R g f ∧ ∀ id, (m' id).getD 0 = (m id).getD 0 + f id)
    (h : evaluateGroups step gs m = .ok (m', gs')) :
    gs'.map channel = gs.map channel ∧ ∃ fs : List (LegacyID → ℝ), List.Forall₂ R gs fs ∧
      ∀ id, (m' id).getD 0 = (m id).getD 0 + (fs.map fun f => f id).sum := by
  induction gs generalizing m gs' with
  | nil =>
    simp only [evaluateGroups, Except.ok.injEq, Prod.mk.injEq] at h
    obtain ⟨rfl, rfl⟩ := h
    exact ⟨rfl, [], .nil, by simp⟩
  | cons g gs ih =>
    obtain ⟨m1, g1, rest, h1, h2, rfl⟩ := evaluateGroups_cons_ok.mp h
    obtain ⟨k1, f, hf, k2⟩ := hstep g List.mem_cons_self _ _ _ h1
    obtain ⟨k3, fs, hfs, k4⟩ := ih (fun g hg => hstep g (List.mem_cons_of_mem _ hg)) h2
    refine ⟨by rw [List.map_cons, List.map_cons, k1, k3], f :: fs, .cons hf hfs, fun id => ?_⟩
    rw [k4, k2, List.map_cons, List.sum_cons]
    ring

theorem potential_ok {lib : CoulombLibrary} {ratio v : ℝ} {lmax : ℕ}
    (h : potential lib ratio lmax = .ok v) : ∃ φ : ℕ → ℝ,
      (∀ l ≤ lmax, calculatePhaseShift lib .neutron l ratio 0 = .ok (φ l)) ∧
      v = ∑ l ∈ Finset.range (lmax + 1), (2 * (l : ℝ) + 1) * Real.sin (φ l) ^ 2 := by
  unfold potential at h
  simp only [bind, Except.bind] at h
  split at h
  · cases h
  rename_i phases hp
  simp only [pure, Except.pure, Except.ok.injEq] at h
  have h1 := mapM_ok.mp hp
  have hlen : phases.length = lmax + 1 := by rw [← h1.length_eq, List.length_range]
  refine ⟨fun l => phases.getD l 0, fun l hl => ?_, ?_⟩
  · have h2 := (List.forall₂_iff_get.mp h1).2 l (by simp; omega) (by omega)
    simp only [List.get_eq_getElem, List.getElem_range] at h2
    rw [h2]
    simp [List.getElem?_eq_getElem (show l < phases.length by omega)]
  · rw [← h, BreitWigner.foldl_add (fun p : ℝ × ℕ => (2 * (p.2 : ℝ) + 1) * (Real.sin p.1 * Real.sin p.1)),
      zero_add]
    have h3 : phases.zipIdx = (List.range phases.length).map fun l => (phases.getD l 0, l) := by
      apply List.ext_getElem
      · simp
      · intro i hi hi'
        have : i < phases.length := by simpa using hi
        simp [this]
    rw [h3, List.map_map, hlen, BreitWigner.list_sum_range]
    refine Finset.sum_congr rfl fun l _ => ?_
    simp only [Function.comp]
    ring

theorem potential_exists {lib : CoulombLibrary} {ratio : ℝ} {lmax : ℕ} (h : lmax ≤ 4) :
    ∃ v, potential lib ratio lmax = .ok v := by
  obtain ⟨phases, hp⟩ : ∃ phases, ((List.range (lmax + 1)).mapM fun l =>
      calculatePhaseShift lib .neutron l ratio 0) = .ok phases := by
    refine mapM_exists.mpr fun l hl => ?_
    have hl : l ≤ 4 := by
      have := List.mem_range.mp hl
      omega
    match l, hl with
    | 0, _ => exact ⟨_, rfl⟩
    | 1, _ => exact ⟨_, rfl⟩
    | 2, _ => exact ⟨_, rfl⟩
    | 3, _ => exact ⟨_, rfl⟩
    | 4, _ => exact ⟨_, rfl⟩
  unfold potential
  rw [hp]
  exact ⟨_, rfl⟩

theorem evaluate_ok {K : Constants} {lib : CoulombLibrary} {E : ℝ} {s s' : LegacySystem G}
    {m m' : LegacyMap} (h : evaluate K lib channel step E s m = .ok (m', s')) :
    ∃ m1 first rest radius v, evaluateGroups step s.groups m = .ok (m1, first :: rest) ∧
      s' = ⟨first :: rest, s.lmax⟩ ∧ (channel first).radii.phaseShift E = .ok radius ∧
      (channel first).waveNumber K E ≠ 0 ∧
      potential lib ((channel first).waveNumber K E * radius) s.lmax = .ok v ∧
      m' = m1.add (legacyID (channel first) .elastic)
        (4 * Real.pi / ((channel first).waveNumber K E * (channel first).waveNumber K E) * v) := by
  unfold evaluate at h
  simp only [bind, Except.bind] at h
  split at h
  · cases h
  rename_i p hp
  obtain ⟨m1, groups⟩ := p
  cases groups with
  | nil => cases h
  | cons first rest =>
    simp only at h
    split at h
    · cases h
    rename_i radius hr
    split at h
    · cases h
    rename_i hk
    split at h
    · cases h
    rename_i v hv
    simp only [pure, Except.pure, Except.ok.injEq, Prod.mk.injEq] at h
    exact ⟨m1, first, rest, radius, v, hp, h.2.symm, hr, hk, hv, h.1.symm⟩

theorem evaluate_of {K : Constants} {lib : CoulombLibrary} {E : ℝ} {s : LegacySystem G}
    {m m1 : LegacyMap} {first : G} {rest : List G} {radius v : ℝ}
    (h1 : evaluateGroups step s.groups m = .ok (m1, first :: rest))
    (h2 : (channel first).radii.phaseShift E = .ok radius)
    (h3 : (channel first).waveNumber K E ≠ 0)
    (h4 : potential lib ((channel first).waveNumber K E * radius) s.lmax = .ok v) :
    evaluate K lib channel step E s m = .ok (m1.add (legacyID (channel first) .elastic)
        (4 * Real.pi / ((channel first).waveNumber K E * (channel first).waveNumber K E) * v),
      ⟨first :: rest, s.lmax⟩) := by
  unfold evaluate
  rw [h1]
  simp only [bind, Except.bind]
  rw [h2]
  simp only
  rw [if_neg h3, h4]
  rfl

theorem foldl_max (f : G → ℕ) (gs : List G) (n : ℕ) :
    let r := gs.foldl (fun m h => max m (f h)) n
    n ≤ r ∧ (∀ g ∈ gs, f g ≤ r) ∧ (r = n ∨ ∃ g ∈ gs, r = f g) := by
  induction gs generalizing n with
  | nil => simp
  | cons g gs ih =>
    obtain ⟨h1, h2, h3⟩ := ih (max n (f g))
    rw [List.foldl_cons]
    refine ⟨le_trans (le_max_left _ _) h1, ?_, ?_⟩
    · intro g' hg'
      rcases List.mem_cons.mp hg' with rfl | hg'
      · exact le_trans (le_max_right _ _) h1
      · exact h2 g' hg'
    · rcases h3 with h3 | ⟨g', hg', h3⟩
      · rcases max_choice n (f g) with h | h
        · exact .inl (h3.trans h)
        · exact .inr ⟨g, List.mem_cons_self, h3.trans h⟩
      · exact .inr ⟨g', List.mem_cons_of_mem _ hg', h3⟩

/-- Grouping a sum over groups by `l`. -/
theorem sum_by_l (l : G → ℕ) (w : G → ℝ) (x : ℕ → ℝ) (gs : List G) (n : ℕ) (h : ∀ g ∈ gs, l g ≤ n) :
    (gs.map fun g => w g * x (l g)).sum
      = ∑ k ∈ Finset.range (n + 1), ((gs.filter fun g => l g = k).map w).sum * x k := by
  induction gs with
  | nil => simp
  | cons g gs ih =>
    rw [List.map_cons, List.sum_cons, ih fun g hg => h g (List.mem_cons_of_mem _ hg)]
    have h1 : ∀ k, (((g :: gs).filter fun g => l g = k).map w).sum
        = (if l g = k then w g else 0) + ((gs.filter fun g => l g = k).map w).sum := by
      intro k
      by_cases hk : l g = k <;> simp [hk]
    simp only [h1, add_mul, Finset.sum_add_distrib]
    congr 1
    rw [Finset.sum_eq_single (l g)]
    · simp
    · intro k _ hk
      simp [Ne.symm hk]
    · intro hn
      exact absurd (Finset.mem_range.mpr (Nat.lt_succ_of_le (h g List.mem_cons_self))) hn

end LegacySystem

end Verif
