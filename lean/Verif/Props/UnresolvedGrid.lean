import Verif.Lemmas.UnresolvedGrid
import Verif.Props.Unresolved
import Verif.Props.LegacyResolvedExamples

/-!
# Properties C39, C35, C38 and C49 for unresolved compound systems, and examples
-/

namespace Verif

namespace Unresolved

/-- All energies given in the tables of a system. -/
def energies (s : LegacySystem SpinGroup) : List ℝ :=
  s.groups.flatMap fun g => g.table.resonances.map Resonance.energy

theorem close_pairwise {r : List ℝ} (h : r.IsChain Close) : r.Pairwise (· < ·) :=
  List.isChain_iff_pairwise.mp (h.imp fun _ _ h => h.1)

theorem close_ratio {r : List ℝ} (h : r.IsChain Close) (i : ℕ) (hi : i + 1 < r.length)
    (h0 : 0 < r[i]) : r[i + 1] ≤ 1.25 * r[i] :=
  (List.isChain_iff_getElem.mp h i hi).2 h0

/-- C39: unless zero is one of the energies and there is a positive one, the construction of the grid
ends, and from some number of steps on the result is the same list: strictly ascending, containing every
energy of the tables, within their extremes, with every other point one of the fixed 13 points per
decade, and with neighbours no more than 25% apart wherever the energies are positive. -/
theorem C39_grid (s : LegacySystem SpinGroup)
    (h0 : ¬ (0 ∈ energies s ∧ ∃ E ∈ energies s, 0 < E)) :
    ∃ steps r, (∀ n ≥ steps, grid n s = .ok (some r)) ∧ r.Pairwise (· < ·) ∧
      (∀ E ∈ energies s, E ∈ r) ∧
      (∀ y ∈ r, (∃ E ∈ energies s, E ≤ y) ∧ ∃ E ∈ energies s, y ≤ E) ∧
      (∀ y ∈ r, y ∈ energies s ∨ ∃ a ∈ ([1, 1.25, 1.5, 1.7, 2, 2.5, 3, 3.5, 4, 5, 6, 7.2, 8.5] : List ℚ),
        ∃ e : ℤ, y = a * (10 : ℝ) ^ e) ∧
      ∀ i (hi : i + 1 < r.length), 0 < r[i] → r[i + 1] ≤ 1.25 * r[i] := by
  have hmem : ∀ E, E ∈ sortUnique (energies s) ↔ E ∈ energies s := fun E => mem_sortUnique
  have hsort := sortUnique_sorted (energies s)
  have hgrid : ∀ n, grid n s = if (sortUnique (energies s)).length > 1 then
      gridRun n ⟨sortUnique (energies s), 0, 1⟩ else .ok (some (sortUnique (energies s))) := fun n => rfl
  simp only [hgrid]
  simp only [← hmem] at h0 ⊢
  generalize sortUnique (energies s) = L at *
  have hnum : ([1, 1.25, 1.5, 1.7, 2, 2.5, 3, 3.5, 4, 5, 6, 7.2, 8.5] : List ℚ) = gridPoints := by
    decide +kernel
  rw [hnum]
  match L with
  | [] =>
    exact ⟨0, [], by simp, by simp, by simp, by simp, by simp, by simp⟩
  | [E] =>
    refine ⟨0, [E], by simp, by simp, by simp, by simp, ?_, ?_⟩
    · intro y hy
      exact .inl hy
    · intro i hi
      simp at hi
  | p :: x :: xs =>
    have hz : 0 ∉ (p :: x :: xs).dropLast := by
      intro h
      apply h0
      refine ⟨List.dropLast_subset _ h, ?_⟩
      have hsplit := List.dropLast_append_getLast (l := p :: x :: xs) (by simp)
      rw [← hsplit] at hsort
      refine ⟨(p :: x :: xs).getLast (by simp), List.getLast_mem _, ?_⟩
      exact (List.pairwise_append.mp hsort).2.2 0 h _ (by simp)
    obtain ⟨fuel, out, h1, h2, h3, h4, h5⟩ := refines (x :: xs) [] p
      (List.isChain_iff_pairwise.mpr hsort) hz
    refine ⟨fuel, p :: out, ?_, close_pairwise h2, ?_, ?_, ?_, fun i hi => close_ratio h2 i hi⟩
    · intro n hn
      rw [if_pos (by simp)]
      exact gridRun_mono hn (by simp) h1
    · intro E hE
      exact (h3.cons_cons p).subset hE
    · intro y hy
      refine ⟨⟨p, List.mem_cons_self, ?_⟩, ?_⟩
      · rcases List.mem_cons.mp hy with rfl | hy
        · exact le_rfl
        · exact (List.rel_of_pairwise_cons (close_pairwise h2) hy).le
      · rcases List.mem_cons.mp hy with rfl | hy
        · exact ⟨y, List.mem_cons_self, le_rfl⟩
        · obtain ⟨z, hz, hyz⟩ := h5 y hy
          exact ⟨z, List.mem_cons_of_mem _ hz, hyz⟩
    · intro y hy
      rcases List.mem_cons.mp hy with rfl | hy
      · exact .inl List.mem_cons_self
      · exact (h4 y hy).imp_left (List.mem_cons_of_mem _)

/-- C39: if zero is one of the energies and there is a positive one, the behaviour is undefined. -/
theorem C39_zero (s : LegacySystem SpinGroup) (h0 : 0 ∈ energies s) {E : ℝ} (hE : E ∈ energies s)
    (hpos : 0 < E) : ∃ steps, ∀ n ≥ steps, grid n s = .error .undefined := by
  have hmem : ∀ E, E ∈ sortUnique (energies s) ↔ E ∈ energies s := fun E => mem_sortUnique
  have hsort := sortUnique_sorted (energies s)
  have hgrid : ∀ n, grid n s = if (sortUnique (energies s)).length > 1 then
      gridRun n ⟨sortUnique (energies s), 0, 1⟩ else .ok (some (sortUnique (energies s))) := fun n => rfl
  simp only [hgrid]
  rw [← hmem] at h0 hE
  generalize sortUnique (energies s) = L at *
  match L with
  | [] => cases h0
  | [y] =>
    simp only [List.mem_singleton] at h0 hE
    rw [hE, ← h0] at hpos
    exact absurd hpos (lt_irrefl 0)
  | p :: x :: xs =>
    have hz : 0 ∈ (p :: x :: xs).dropLast := by
      have hsplit := List.dropLast_append_getLast (l := p :: x :: xs) (by simp)
      rw [← hsplit] at h0 hE hsort
      rcases List.mem_append.mp h0 with h | h
      · exact h
      · have h1 : (p :: x :: xs).getLast (by simp) = 0 := (List.mem_singleton.mp h).symm
        rw [h1] at hE hsort
        rcases List.mem_append.mp hE with h2 | h2
        · exact absurd ((List.pairwise_append.mp hsort).2.2 E h2 0 (by simp)) (not_lt.mpr hpos.le)
        · rw [List.mem_singleton.mp h2] at hpos
          exact absurd hpos (lt_irrefl 0)
    obtain ⟨fuel, h1⟩ := gridRun_zero (x :: xs) [] p (List.isChain_iff_pairwise.mpr hsort) hz
    exact ⟨fuel, fun n hn => by rw [if_pos (by simp)]; exact gridRun_mono hn (by simp) h1⟩

/-- C35 for unresolved resonances: a compound system adds, besides what its groups add, the potential
scattering `4π/k² Σ_{l=0}^{lmax} (2l+1) sin² φ_l`, and leaves its groups as they are. -/
theorem C35_unresolved {K : Constants} {lib : CoulombLibrary} {E : ℝ} {s s' : LegacySystem SpinGroup}
    {m m' : LegacyMap} {first : SpinGroup} {rest : List SpinGroup} (hs : s.groups = first :: rest)
    (h : s.evaluate K lib SpinGroup.channel (SpinGroup.evaluate K lib E) E m = .ok (m', s')) :
    ∃ (m1 : LegacyMap) (φ : ℕ → ℝ) (radius : ℝ), s' = s ∧
      LegacySystem.evaluateGroups (SpinGroup.evaluate K lib E) s.groups m = .ok (m1, s.groups) ∧
      first.channel.radii.phaseShift E = .ok radius ∧
      (∀ l ≤ s.lmax, calculatePhaseShift lib .neutron l (first.channel.waveNumber K E * radius) 0
        = .ok (φ l)) ∧
      (∀ id, id ≠ legacyID first.channel .elastic → m' id = m1 id) ∧
      m' (legacyID first.channel .elastic) = some ((m1 (legacyID first.channel .elastic)).getD 0
        + 4 * Real.pi / first.channel.waveNumber K E ^ 2
          * ∑ l ∈ Finset.range (s.lmax + 1), (2 * (l : ℝ) + 1) * Real.sin (φ l) ^ 2) := by
  obtain ⟨m1, first', rest', radius, v, h1, hs', hr, hk, hv, rfl⟩ := LegacySystem.evaluate_ok h
  obtain ⟨φ, hφ, rfl⟩ := LegacySystem.potential_ok hv
  have hsame : ∀ (gs gs' : List SpinGroup) (m m' : LegacyMap),
      LegacySystem.evaluateGroups (SpinGroup.evaluate K lib E) gs m = .ok (m', gs') → gs' = gs := by
    intro gs
    induction gs with
    | nil =>
      intro gs' m m' h
      simp only [LegacySystem.evaluateGroups, Except.ok.injEq, Prod.mk.injEq] at h
      exact h.2.symm
    | cons g gs ih =>
      intro gs' m m' h
      obtain ⟨m1, g1, rest, k1, k2, rfl⟩ := LegacySystem.evaluateGroups_cons_ok.mp h
      obtain ⟨_, _, _, _, _, _, _, _, _, hg, _⟩ := evaluate_ok k1
      rw [hg, ih _ _ _ k2]
  have he := hsame _ _ _ _ h1
  rw [hs] at he
  obtain ⟨rfl, rfl⟩ := List.cons.inj he
  refine ⟨m1, φ, radius, ?_, by rw [h1, hs], hr, hφ, fun id hid => LegacyMap.add_other _ _ hid, ?_⟩
  · rw [hs', ← hs]
  · rw [LegacyMap.add_self, pow_two]

/-! ## Examples -/

namespace Example

/-- Linear interpolation, throwing outside the table: what the interpolation library is meant to do. -/
noncomputable def linearAt : List (ℝ × ℝ) → ℝ → Outcome ℝ
  | a :: b :: rest, E =>
    if a.1 ≤ E ∧ E ≤ b.1 then .ok (a.2 + (b.2 - a.2) * ((E - a.1) / (b.1 - a.1)))
    else linearAt (b :: rest) E
  | _, _ => .error .throws

noncomputable def linear : Interpolation := fun xs ys => .ok fun E => linearAt (xs.zip ys) E

/-- Linear interpolation between ordinates that are not negative is not negative. -/
theorem linearAt_nonneg {table : List (ℝ × ℝ)} (h : ∀ p ∈ table, 0 ≤ p.2) {E y : ℝ}
    (hy : linearAt table E = .ok y) : 0 ≤ y := by
  induction table with
  | nil => simp [linearAt] at hy
  | cons a t ih =>
    cases t with
    | nil => simp [linearAt] at hy
    | cons b rest =>
      rw [linearAt] at hy
      split_ifs at hy with hE
      · have := Except.ok.inj hy
        have ha := h a List.mem_cons_self
        have hb := h b (List.mem_cons_of_mem _ List.mem_cons_self)
        rw [← this]
        have h1 : 0 ≤ (E - a.1) / (b.1 - a.1) := div_nonneg (by linarith) (by linarith)
        have h2 : (E - a.1) / (b.1 - a.1) ≤ 1 := div_le_one_of_le₀ (by linarith) (by linarith)
        nlinarith [mul_nonneg h1 hb, mul_nonneg (sub_nonneg.mpr h2) ha]
      · exact ih (fun p hp => h p (List.mem_cons_of_mem _ hp)) hy

/-- Two sets of average parameters, with fission and competition. -/
noncomputable def low : Resonance := ⟨1, 1, 1 / 1000, 1 / 20, 1 / 100, 1 / 10⟩

noncomputable def high : Resonance := ⟨100, 2, 1 / 500, 1 / 20, 1 / 50, 1 / 5⟩

noncomputable def table : Table :=
  ⟨[low, high], ⟨1, 0, 2, 4⟩, linearAt [(1, 1), (100, 2)], linearAt [(1, 1 / 1000), (100, 1 / 500)],
    linearAt [(1, 1 / 20), (100, 1 / 20)], linearAt [(1, 1 / 100), (100, 1 / 50)],
    linearAt [(1, 1 / 10), (100, 1 / 5)]⟩

theorem table_made : makeTable linear [low, high] ⟨1, 0, 2, 4⟩ = .ok table := rfl

noncomputable def group : SpinGroup := ⟨BreitWigner.Example.channel 0 (1 / 2) 1, table⟩

noncomputable def parameters : Resonance :=
  ⟨2, 100 / 99, 100 / 99000, 1 / 20, 100 / 9900, 100 / 990⟩

theorem table_call : table.call 2 = .ok parameters := by
  have h : ∀ a b : ℝ, linearAt [(1, a), (100, b)] 2 = .ok (a + (b - a) * ((2 - 1) / (100 - 1))) := by
    intro a b
    rw [linearAt, if_pos (by norm_num)]
  unfold Table.call table parameters
  simp only [h, bind, Except.bind, pure, Except.pure, Except.ok.injEq, Resonance.mk.injEq, true_and]
  norm_num

end Example

open Verif.Example (constants)

/-- Three kinds of fluctuating widths at once (C37, C56). -/
example : ∃ r, calculateFluctuationIntegrals ⟨1, 1 / 10, 1 / 2, 3⟩ ⟨1, 0, 2, 4⟩ = .ok r :=
  C37_exists ⟨by decide, by decide, fun _ => by decide, fun _ => by decide⟩ (by norm_num)
    (by norm_num) (by norm_num) (by norm_num) (.inl (by norm_num))

/-- Widths for which the integrals do not exist: everything zero. -/
example : calculateFluctuationIntegrals ⟨0, 0, 0, 0⟩ ⟨1, 0, 0, 0⟩ = .error .notFinite := by
  refine (C37_averages ⟨by decide, by decide, by simp, by simp⟩).2 fun h => ?_
  exact h (q 0 0, w 0 0) (mem_column.mpr ⟨0, by decide, rfl⟩) (0, 1) (by simp [fluctuations, Spec.fixed])
    (0, 1) (by simp [fluctuations, Spec.fixed]) (by simp [totalWidth])

/-- A group with fission and competition meets the conditions of C49. -/
theorem Example.evaluates (lib : CoulombLibrary) (m : LegacyMap) :
    ∃ m', Example.group.evaluate constants lib 2 m = .ok (m', Example.group) := by
  have hk : Example.group.channel.waveNumber constants 2 = 1 :=
    BreitWigner.Example.waveNumber 0 (1 / 2) 1
  have hP : Example.group.channel.penetrability constants lib 2 = .ok 1 :=
    BreitWigner.Example.penetrability lib 0 (1 / 2) 1
  have hφ : Example.group.channel.phaseShift constants lib 2 = .ok 1 :=
    BreitWigner.Example.phaseShift lib 0 (1 / 2) 1
  have hR : Example.group.channel.radii.penetrability 2 = .ok 1 := rfl
  have ht : Example.group.table.call 2 = .ok Example.parameters := Example.table_call
  obtain ⟨r, hr⟩ := C37_exists (widths := ⟨Example.parameters.elastic * Real.sqrt 2
      * (((1 : ℕ) : ℝ) * 1 / (1 * 1)), Example.parameters.capture, Example.parameters.fission,
      Example.parameters.competition⟩) (degrees := ⟨1, 0, 2, 4⟩)
    ⟨by decide, by decide, fun _ => by decide, fun _ => by decide⟩
    (by simp only [Example.parameters]; positivity) (by norm_num [Example.parameters])
    (by norm_num [Example.parameters]) (by norm_num [Example.parameters])
    (.inr (by norm_num [Example.parameters]))
  unfold SpinGroup.evaluate
  simp only [hP, hφ, hR, ht, bind, Except.bind, hk]
  rw [if_neg (by norm_num [Example.parameters]),
    show Example.group.table.degrees = ⟨1, 0, 2, 4⟩ from rfl]
  simp only
  rw [hr]
  exact ⟨_, rfl⟩

example : Unsigned Example.group.table.degrees ∧ Example.group.channel.type = .neutron ∧
    (∀ R, Example.group.channel.radii.penetrability 2 = .ok R → 0 ≤ R) ∧
    0 ≤ Example.group.channel.spinFactor ∧
    ∀ t, Example.group.table.call 2 = .ok t →
      0 ≤ t.spacing ∧ 0 ≤ t.elastic ∧ 0 ≤ t.capture ∧ 0 ≤ t.fission ∧ 0 ≤ t.competition := by
  refine ⟨⟨by decide, by decide, by decide, by decide⟩, rfl, ?_, ?_, ?_⟩
  · intro R hR
    have : (1 : ℝ) = R := Except.ok.inj hR
    rw [← this]
    norm_num
  · show (0 : ℚ) ≤ statisticalSpinFactor (1 / 2) (1 / 2) 0
    norm_num [statisticalSpinFactor]
  · intro t ht
    rw [show Example.group.table.call 2 = .ok Example.parameters from Example.table_call] at ht
    rw [← Except.ok.inj ht]
    norm_num [Example.parameters]

/-- The energies 1 and 100 are a case of C39, with two decades to fill. -/
example : ∃ steps r, (∀ n ≥ steps, grid n ⟨[Example.group], 0⟩ = .ok (some r)) ∧
    1 ∈ r ∧ 100 ∈ r ∧ 2 < r.length := by
  have hE : energies ⟨[Example.group], 0⟩ = [1, 100] := rfl
  obtain ⟨steps, r, h1, h2, h3, h4, -, h6⟩ := C39_grid ⟨[Example.group], 0⟩ (by
    rw [hE]
    simp)
  rw [hE] at h3 h4
  refine ⟨steps, r, h1, h3 1 (by simp), h3 100 (by simp), ?_⟩
  by_contra hlen
  have m1 := h3 1 (by simp)
  have m2 := h3 100 (by simp)
  match r, hlen with
  | [], _ => cases m1
  | [a], _ =>
    simp only [List.mem_singleton] at m1 m2
    rw [← m1] at m2
    norm_num at m2
  | [a, b], _ =>
    have hab : a < b := by simpa using h2
    have h7 := h6 0 (by simp)
    simp only [List.getElem_cons_zero, List.getElem_cons_succ, zero_add] at h7
    simp only [List.mem_cons, List.not_mem_nil, or_false] at m1 m2
    clear h1 h2 h3 h4 h6
    rcases m1 with m1 | m1 <;> rcases m2 with m2 | m2
    · linarith
    · have := h7 (by linarith)
      norm_num at this
      linarith
    · linarith
    · linarith
  | a :: b :: c :: r, hlen => simp at hlen

/-- Zero as the first of two energies is a case of `C39_zero`. -/
example : ∃ steps, ∀ n ≥ steps,
    grid n ⟨[⟨Example.group.channel, { Example.table with
      resonances := [{ Example.low with energy := 0 }, Example.high] }⟩], 0⟩ = .error .undefined :=
  C39_zero _ (E := 100) (by simp [energies, Example.low]) (by simp [energies, Example.high])
    (by norm_num)

end Unresolved

end Verif
