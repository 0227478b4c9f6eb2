import Verif.Lemmas.CompoundSystem
import Verif.Lemmas.Evaluate
import Verif.Lemmas.TMatrix

/-!
# Lemmas about compound systems
-/

namespace Verif

open Complex

section

variable {option : BoundaryOption} {K : Constants} {lib : CoulombLibrary} {E : ℝ}

/-- Success and the new matrices do not depend on the map. -/
theorem evaluate_map {g : SpinGroup} {cache cache' : MatrixCache g.channels.length}
    {result result' : CrossSectionMap}
    (h : g.evaluate option K lib E cache result = .ok (result', cache')) (other : CrossSectionMap) :
    ∃ r, g.evaluate option K lib E cache other = .ok (r, cache') := by
  unfold SpinGroup.evaluate at h ⊢
  simp only [bind, Except.bind] at h ⊢
  split at h
  · cases h
  · rename_i v hv
    simp only [pure, Except.pure, Except.ok.injEq, Prod.mk.injEq] at h
    exact ⟨g.incident.foldl (SpinGroup.processIncidentChannel g.reactions v.1) other, by rw [← h.2]; rfl⟩

theorem evaluate_nil (result : CrossSectionMap) :
    CompoundSystem.evaluate option K lib E [] result = .ok (result, []) := rfl

theorem evaluate_cons_ok {s : GroupState} {rest s' : CompoundSystem}
    {result result' : CrossSectionMap} :
    CompoundSystem.evaluate option K lib E (s :: rest) result = .ok (result', s') ↔
      ∃ r cache rest', s.group.evaluate option K lib E s.cache result = .ok (r, cache) ∧
        CompoundSystem.evaluate option K lib E rest r = .ok (result', rest') ∧
        s' = ⟨s.group, cache⟩ :: rest' := by
  rw [CompoundSystem.evaluate]
  simp only [bind, Except.bind]
  cases h : s.group.evaluate option K lib E s.cache result with
  | error e => simp
  | ok p =>
    obtain ⟨r, cache⟩ := p
    simp only
    cases h2 : CompoundSystem.evaluate option K lib E rest r with
    | error e =>
      simp only [Except.ok.injEq, Prod.mk.injEq, reduceCtorEq, false_iff]
      rintro ⟨r', c', rest', ⟨rfl, rfl⟩, h3, -⟩
      rw [h2] at h3
      cases h3
    | ok q =>
      obtain ⟨r2, rest2⟩ := q
      simp only [pure, Except.pure, Except.ok.injEq, Prod.mk.injEq]
      constructor
      · rintro ⟨rfl, rfl⟩
        exact ⟨r, cache, rest2, ⟨rfl, rfl⟩, h2, rfl⟩
      · rintro ⟨r', c', rest', ⟨rfl, rfl⟩, h3, rfl⟩
        rw [h2] at h3
        simp only [Except.ok.injEq, Prod.mk.injEq] at h3
        exact ⟨h3.1, by rw [h3.2]⟩

/-- A system can be evaluated if every group can. -/
theorem evaluate_system_exists {s : CompoundSystem}
    (h : ∀ st ∈ s, ∃ r, st.group.evaluate option K lib E st.cache (fun _ => none) = .ok r)
    (result : CrossSectionMap) :
    ∃ r, CompoundSystem.evaluate option K lib E s result = .ok r := by
  induction s generalizing result with
  | nil => exact ⟨_, rfl⟩
  | cons st rest ih =>
    obtain ⟨⟨r, c⟩, hr⟩ := h st List.mem_cons_self
    obtain ⟨r1, h1⟩ := evaluate_map hr result
    obtain ⟨⟨r2, rest'⟩, h2⟩ := ih (fun st hst => h st (List.mem_cons_of_mem _ hst)) r1
    exact ⟨_, evaluate_cons_ok.mpr ⟨r1, c, rest', h1, h2, rfl⟩⟩

theorem evaluate_system_groups {s s' : CompoundSystem} {result result' : CrossSectionMap}
    (h : CompoundSystem.evaluate option K lib E s result = .ok (result', s')) :
    s'.map GroupState.group = s.map GroupState.group ∧
    ∀ st ∈ s, ∃ r, st.group.evaluate option K lib E st.cache (fun _ => none) = .ok r := by
  induction s generalizing result s' with
  | nil =>
    rw [evaluate_nil] at h
    cases h
    exact ⟨rfl, fun st hst => by cases hst⟩
  | cons st rest ih =>
    obtain ⟨r, c, rest', h1, h2, rfl⟩ := evaluate_cons_ok.mp h
    obtain ⟨h3, h4⟩ := ih h2
    refine ⟨by rw [List.map_cons, List.map_cons, h3], fun st' hst => ?_⟩
    rcases List.mem_cons.mp hst with rfl | hst
    · obtain ⟨r', h5⟩ := evaluate_map h1 fun _ => none
      exact ⟨_, h5⟩
    · exact h4 st' hst

/-! ## T-matrices overwrite -/

theorem foldl_update_or {α β : Type*} (key : α → Str) (val : α → β) (l : List α) :
    ∃ p : Str → Option β, ∀ m : Str → Option β,
      l.foldl (fun m a => Function.update m (key a) (some (val a))) m = fun k => (p k).or (m k) := by
  induction l with
  | nil => exact ⟨fun _ => none, fun m => rfl⟩
  | cons a l ih =>
    obtain ⟨p, hp⟩ := ih
    refine ⟨fun k => (p k).or (if k = key a then some (val a) else none), fun m => ?_⟩
    rw [List.foldl_cons, hp]
    funext k
    rw [Option.or_assoc, Function.update_apply]
    congr 1
    split <;> rfl

theorem evaluateTMatrix_override {g : SpinGroup} {cache cache' : MatrixCache g.channels.length}
    {m m' : Str → Option ℂ} (h : g.evaluateTMatrix option K lib E cache m = .ok (m', cache')) :
    ∃ p : Str → Option ℂ, (m' = fun k => (p k).or (m k)) ∧ ∀ other,
      g.evaluateTMatrix option K lib E cache other = .ok (fun k => (p k).or (other k), cache') := by
  unfold SpinGroup.evaluateTMatrix at h ⊢
  simp only [bind, Except.bind] at h ⊢
  split at h
  · cases h
  rename_i P hP
  split at h
  · cases h
  rename_i hneg
  split at h
  · cases h
  rename_i c hc
  simp only [pure, Except.pure, Except.ok.injEq, Prod.mk.injEq, foldl_foldl_product] at h
  obtain ⟨p, hp⟩ := foldl_update_or
    (fun p : Fin g.channels.length × Fin g.channels.length =>
      tMatrixKey g.channels[p.1].id g.channels[p.2].id)
    (fun p => (Real.sqrt (P p.1) : ℂ) * c.RL p.2 p.1 * (Real.sqrt (P p.2) : ℂ))
    ((List.finRange g.channels.length).product (List.finRange g.channels.length))
  refine ⟨p, ?_, fun other => ?_⟩
  · rw [← h.1]
    exact hp m
  · simp only [pure, Except.pure, foldl_foldl_product]
    rw [if_neg hneg, ← h.2]
    exact congrArg (fun x => Except.ok (x, c)) (hp other)

end

/-! ## Total widths and grids -/

theorem foldl_add_sum (l : List ℝ) (a : ℝ) : l.foldl (· + ·) a = a + l.sum := by
  induction l generalizing a with
  | nil => simp
  | cons b l ih => simp only [List.foldl_cons, ih, List.sum_cons]; ring

theorem zipWith_ofFn_sum {n : ℕ} (f : ℝ → ℝ → ℝ) (l : List ℝ) (P : Fin n → ℝ) (h : l.length = n) :
    (List.zipWith f l (List.ofFn P)).sum = ∑ i : Fin n, f (l.getD i 0) (P i) := by
  subst h
  induction l with
  | nil => simp
  | cons a l ih =>
    have h0 : (List.ofFn P) = P 0 :: List.ofFn (fun i => P i.succ) := List.ofFn_succ
    have h1 : ∑ i : Fin (a :: l).length, f ((a :: l).getD i 0) (P i)
        = f a (P 0) + ∑ i : Fin l.length, f (l.getD i 0) (P i.succ) :=
      Fin.sum_univ_succ (fun i : Fin (l.length + 1) => f ((a :: l).getD i 0) (P i))
    rw [h0, h1, List.zipWith_cons_cons, List.sum_cons, ih]

/-- What the total width is. -/
theorem totalWidth_ok {K : Constants} {lib : CoulombLibrary} {channels : List Channel} {r : Resonance}
    {G : ℝ} (hr : r.widths.length = channels.length) :
    totalWidth K lib channels r = .ok G ↔
      ∃ P : Fin channels.length → ℝ,
        (∀ i : Fin channels.length, channels[i].penetrability K lib r.energy = .ok (P i)) ∧
        G = 2 * r.eliminated ^ 2 + ∑ i : Fin channels.length, 2 * P i * r.widths.getD i 0 ^ 2 := by
  unfold totalWidth
  simp only [bind, Except.bind]
  have key : ∀ P : Fin channels.length → ℝ,
      (List.zipWith (fun gamma p => 2 * p * gamma * gamma) r.widths (List.ofFn P)).foldl (· + ·)
        (2 * r.eliminated * r.eliminated)
      = 2 * r.eliminated ^ 2 + ∑ i : Fin channels.length, 2 * P i * r.widths.getD i 0 ^ 2 := by
    intro P
    rw [foldl_add_sum, zipWith_ofFn_sum _ _ _ hr]
    congr 1
    · ring
    · exact Finset.sum_congr rfl fun i _ => by ring
  cases h : collect fun i : Fin channels.length => channels[i].penetrability K lib r.energy with
  | error e =>
    simp only [reduceCtorEq, false_iff]
    rintro ⟨P, hP, -⟩
    rw [collect_ok.mpr hP] at h
    cases h
  | ok P =>
    simp only [pure, Except.pure, Except.ok.injEq]
    rw [key]
    constructor
    · rintro rfl
      exact ⟨P, collect_ok.mp h, rfl⟩
    · rintro ⟨P', hP', rfl⟩
      have : P = P' := by
        rw [collect_ok.mpr hP'] at h
        exact (Except.ok.inj h).symm
      rw [this]

theorem gridPoints_ok {K : Constants} {lib : CoulombLibrary} {channels : List Channel}
    {rs : List Resonance} {points : List ℝ} (h : gridPoints K lib channels rs = .ok points) (x : ℝ) :
    x ∈ points ↔ ∃ r ∈ rs, 0 < r.energy ∧ ∃ G, totalWidth K lib channels r = .ok G ∧
      (x = r.energy - G / 2 ∨ x = r.energy ∨ x = r.energy + G / 2) := by
  induction rs generalizing points with
  | nil =>
    simp only [gridPoints, Except.ok.injEq] at h
    subst h
    simp
  | cons r rs ih =>
    rw [gridPoints] at h
    by_cases hE : r.energy > 0
    · rw [if_pos hE] at h
      simp only [bind, Except.bind] at h
      split at h
      · cases h
      rename_i G hG
      split at h
      · cases h
      rename_i pts hpts
      simp only [pure, Except.pure, Except.ok.injEq] at h
      subst h
      rw [List.mem_append, ih hpts, List.exists_mem_cons_iff]
      refine or_congr ?_ Iff.rfl
      simp only [List.mem_cons, List.not_mem_nil, or_false]
      rw [show (0.5 : ℝ) * G = G / 2 by ring]
      constructor
      · intro h
        exact ⟨hE, G, hG, h⟩
      · rintro ⟨-, G', hG', h⟩
        rw [hG] at hG'
        rw [Except.ok.inj hG']
        exact h
    · rw [if_neg hE] at h
      rw [ih h, List.exists_mem_cons_iff]
      constructor
      · exact Or.inr
      · rintro (⟨h1, -⟩ | h)
        · exact absurd h1 hE
        · exact h

theorem gridPoints_exists {K : Constants} {lib : CoulombLibrary} {channels : List Channel}
    {rs : List Resonance} : (∃ points, gridPoints K lib channels rs = .ok points) ↔
      ∀ r ∈ rs, 0 < r.energy → ∃ G, totalWidth K lib channels r = .ok G := by
  induction rs with
  | nil => simp [gridPoints]
  | cons r rs ih =>
    rw [List.forall_mem_cons, ← ih, gridPoints]
    by_cases hE : r.energy > 0
    · rw [if_pos hE]
      simp only [bind, Except.bind]
      cases hG : totalWidth K lib channels r with
      | error e => simp [hE]
      | ok G =>
        cases hp : gridPoints K lib channels rs with
        | error e => simp
        | ok pts => simp [pure, Except.pure]
    · rw [if_neg hE]
      simp [hE]

end Verif
