import Verif.Model.Unresolved
import Verif.Lemmas.CompoundSystem
import Mathlib.Tactic.NormNum
import Mathlib.Tactic.FieldSimp
import Mathlib.Tactic.Linarith

/-!
# Lemmas about the grid of unresolved resonances
-/

namespace Verif

namespace Unresolved

/-- Neighbours in the grid: ascending and, between positive energies, no more than 25% apart. -/
def Close (a b : ℝ) : Prop := a < b ∧ (0 < a → b ≤ 1.25 * a)

theorem gridPoints_chain : gridPoints.IsChain fun a b => 0 < a ∧ a < b ∧ b ≤ 5 / 4 * a := by
  decide +kernel

theorem gridValues_chain (p : ℝ) : (gridValues p).IsChain Close := by
  unfold gridValues
  rw [List.isChain_map]
  refine gridPoints_chain.imp fun a b h => ?_
  have h10 : (0 : ℝ) < 10 ^ gridExponent p := by positivity
  obtain ⟨h0, h1, h2⟩ := h
  have h1' : (a : ℝ) < b := by exact_mod_cast h1
  have h2' : (b : ℝ) ≤ 5 / 4 * a := by
    have : ((b : ℚ) : ℝ) ≤ ((5 / 4 * a : ℚ) : ℝ) := by exact_mod_cast h2
    push_cast at this
    exact this
  refine ⟨mul_lt_mul_of_pos_right h1' h10, fun _ => ?_⟩
  nlinarith

theorem gridExponent_bounds {p : ℝ} (hp : 0 < p) :
    0.85 * (10 : ℝ) ^ gridExponent p ≤ p ∧ p < 8.5 * (10 : ℝ) ^ gridExponent p := by
  unfold gridExponent
  have h10 : (1 : ℝ) < 10 := by norm_num
  have h1 : (10 : ℝ) ^ ⌊Real.logb 10 |p|⌋ ≤ p := by
    have := Int.floor_le (Real.logb 10 |p|)
    rw [abs_of_pos hp] at this ⊢
    rw [Real.le_logb_iff_rpow_le h10 hp, Real.rpow_intCast] at this
    exact this
  have h2 : p < (10 : ℝ) ^ (⌊Real.logb 10 |p|⌋ + 1) := by
    have := Int.lt_floor_add_one (Real.logb 10 |p|)
    rw [abs_of_pos hp] at this ⊢
    rw [Real.logb_lt_iff_lt_rpow h10 hp] at this
    rw [← Real.rpow_intCast]
    push_cast
    exact this
  rw [zpow_add_one₀ (by norm_num)] at h2
  have h3 : (0 : ℝ) < 10 ^ ⌊Real.logb 10 |p|⌋ := by positivity
  simp only
  split_ifs with h
  · rw [zpow_add_one₀ (by norm_num)]
    constructor <;> nlinarith
  · push Not at h
    constructor <;> nlinarith

theorem gridExponent_unique {p : ℝ} (hp : 0 < p) {e : ℤ} (h1 : 0.85 * (10 : ℝ) ^ e ≤ p)
    (h2 : p < 8.5 * (10 : ℝ) ^ e) : gridExponent p = e := by
  obtain ⟨h3, h4⟩ := gridExponent_bounds hp
  have key : ∀ a b : ℤ, 0.85 * (10 : ℝ) ^ a ≤ p → p < 8.5 * (10 : ℝ) ^ b → a ≤ b := by
    intro a b ha hb
    by_contra hab
    have : b + 1 ≤ a := by omega
    have h5 : (10 : ℝ) ^ (b + 1) ≤ 10 ^ a := zpow_le_zpow_right₀ (by norm_num) this
    rw [zpow_add_one₀ (by norm_num)] at h5
    have h6 : (0 : ℝ) < 10 ^ b := by positivity
    nlinarith
  exact le_antisymm (key _ _ h3 h2) (key _ _ h1 h4)

/-- Skipping what is not greater than `p` in a fine chain that reaches beyond `p` and starts at most 25%
above it. -/
theorem dropWhile_chain {L : List ℝ} {p : ℝ} (hL : L.IsChain Close) (hpos : ∀ y ∈ L, 0 < y)
    (hlast : ∃ y ∈ L, p < y) (hhead : ∀ h ∈ L.head?, h ≤ 1.25 * p) :
    ∃ h t, L.dropWhile (· ≤ p) = h :: t ∧ p < h ∧ h ≤ 1.25 * p ∧ (h :: t).IsChain Close ∧
      ∃ s, L = s ++ h :: t := by
  induction L with
  | nil => obtain ⟨y, hy, -⟩ := hlast; cases hy
  | cons a L ih =>
    by_cases ha : a ≤ p
    · rw [List.dropWhile_cons_of_pos (by simpa using ha)]
      obtain ⟨y, hy, hpy⟩ := hlast
      have hy' : y ∈ L := by
        rcases List.mem_cons.mp hy with rfl | hy
        · exact absurd hpy (not_lt.mpr ha)
        · exact hy
      obtain ⟨h, t, h1, h2, h3, h4, s, h5⟩ := ih hL.tail
        (fun z hz => hpos z (List.mem_cons_of_mem _ hz)) ⟨y, hy', hpy⟩ (by
        intro b hb
        cases L with
        | nil => cases hb
        | cons c L =>
          simp only [List.head?_cons, Option.mem_def, Option.some.injEq] at hb
          subst hb
          have hc := (List.isChain_cons_cons.mp hL).1
          have := hc.2 (hpos a List.mem_cons_self)
          linarith)
      exact ⟨h, t, h1, h2, h3, h4, a :: s, by rw [h5]; rfl⟩
    · rw [List.dropWhile_cons_of_neg (by simpa using ha)]
      push Not at ha
      exact ⟨a, L, rfl, ha, hhead a (by simp), hL, [], rfl⟩

/-- Cutting a fine chain below `x`. -/
theorem takeWhile_chain {h : ℝ} {t : List ℝ} {x : ℝ} (hL : (h :: t).IsChain Close) (h0 : 0 < h)
    (hx : h < x) : ∃ T l, (h :: t).takeWhile (· < x) = T ++ [l] ∧ (T ++ [l]).IsChain Close ∧
      (∀ y ∈ T ++ [l], y < x) ∧ (∀ y ∈ T ++ [l], h ≤ y) ∧
      (x ≤ 1.25 * l ∨ T ++ [l] = h :: t) := by
  induction t generalizing h with
  | nil =>
    refine ⟨[], h, ?_, .singleton _, ?_, ?_, .inr rfl⟩
    · rw [List.takeWhile_cons_of_pos (by simpa using hx)]
      rfl
    · simpa using hx
    · simp
  | cons b t ih =>
    obtain ⟨h1, h2⟩ := List.isChain_cons_cons.mp hL
    rw [List.takeWhile_cons_of_pos (by simpa using hx)]
    by_cases hb : b < x
    · obtain ⟨T, l, k1, k2, k3, k4, k5⟩ := ih h2 (h0.trans h1.1) hb
      refine ⟨h :: T, l, by rw [k1]; rfl, ?_, ?_, ?_, ?_⟩
      · rw [List.cons_append]
        cases T with
        | nil =>
          rw [List.takeWhile_cons_of_pos (by simpa using hb)] at k1
          simp only [List.nil_append, List.cons.injEq] at k1 ⊢
          rw [← k1.1]
          exact .cons_cons h1 (.singleton _)
        | cons c T =>
          rw [List.takeWhile_cons_of_pos (by simpa using hb)] at k1
          simp only [List.cons_append, List.cons.injEq] at k1 k2 ⊢
          refine .cons_cons ?_ k2
          rw [← k1.1]
          exact h1
      · intro y hy
        rcases List.mem_cons.mp hy with rfl | hy
        · exact hx
        · exact k3 y hy
      · intro y hy
        rcases List.mem_cons.mp hy with rfl | hy
        · exact le_rfl
        · exact h1.1.le.trans (k4 y hy)
      · rcases k5 with k5 | k5
        · exact .inl k5
        · exact .inr (by rw [List.cons_append, k5])
    · rw [List.takeWhile_cons_of_neg (by simpa using hb)]
      push Not at hb
      refine ⟨[], h, rfl, .singleton _, by simpa using hx, by simp, .inl ?_⟩
      exact hb.trans (h1.2 h0)

theorem gridValues_pos (p : ℝ) : ∀ y ∈ gridValues p, 0 < y := by
  intro y hy
  obtain ⟨a, ha, rfl⟩ := List.mem_map.mp hy
  have h1 : ∀ a ∈ gridPoints, 0 < a := by decide +kernel
  have h2 : (0 : ℝ) < a := by exact_mod_cast h1 a ha
  positivity

theorem gridValues_split (p : ℝ) : ∃ s, gridValues p = s ++ [8.5 * (10 : ℝ) ^ gridExponent p] := by
  refine ⟨gridPoints.dropLast.map fun a : ℚ => (a : ℝ) * (10 : ℝ) ^ gridExponent p, ?_⟩
  have : gridPoints = gridPoints.dropLast ++ [8.5] := by decide +kernel
  unfold gridValues
  conv_lhs => rw [this]
  rw [List.map_append]
  simp only [List.map_cons, List.map_nil]
  norm_num

theorem gridValues_head (p : ℝ) : (gridValues p).head? = some ((10 : ℝ) ^ gridExponent p) := by
  simp [gridValues, gridPoints]
  norm_num

/-- What is inserted between two energies more than 25% apart. -/
theorem inserted_spec {p x : ℝ} (hp : 0 < p) (hx : 1.25 * p < x) :
    ∃ T l, inserted p x = T ++ [l] ∧ (p :: (T ++ [l])).IsChain Close ∧
      (∀ y ∈ T ++ [l], p < y ∧ y < x) ∧ (∀ y ∈ T ++ [l], ∃ a ∈ gridPoints, ∃ e : ℤ,
        y = (a : ℝ) * (10 : ℝ) ^ e) ∧
      (x ≤ 1.25 * l ∨ (gridExponent l = gridExponent p + 1 ∧
        8.5 * (10 : ℝ) ^ gridExponent p < x)) := by
  obtain ⟨b1, b2⟩ := gridExponent_bounds hp
  have h10 : (0 : ℝ) < 10 ^ gridExponent p := by positivity
  obtain ⟨s, hs⟩ := gridValues_split p
  obtain ⟨h, t, h1, h2, h3, h4, s', h5⟩ := dropWhile_chain (p := p) (gridValues_chain p)
    (gridValues_pos p) ⟨8.5 * (10 : ℝ) ^ gridExponent p, by rw [hs]; simp, b2⟩ (by
      intro y hy
      rw [gridValues_head] at hy
      simp only [Option.mem_def, Option.some.injEq] at hy
      subst hy
      linarith)
  have hh : 0 < h := hp.trans h2
  obtain ⟨T, l, k1, k2, k3, k4, k5⟩ := takeWhile_chain (x := x) h4 hh (by linarith)
  have hins : inserted p x = T ++ [l] := by
    unfold inserted
    rw [h1, k1]
  have hfirst : ∃ T', T ++ [l] = h :: T' := by
    rw [← k1, List.takeWhile_cons_of_pos (by simpa using (show h < x by linarith))]
    exact ⟨_, rfl⟩
  obtain ⟨T', hT'⟩ := hfirst
  refine ⟨T, l, hins, ?_, fun y hy => ⟨h2.trans_le (k4 y hy), k3 y hy⟩, ?_, ?_⟩
  · rw [hT'] at k2 ⊢
    exact .cons_cons ⟨h2, fun _ => h3⟩ k2
  · intro y hy
    have hy' : y ∈ gridValues p := by
      rw [← k1] at hy
      have := (List.takeWhile_subset _) hy
      rw [h5]
      exact List.mem_append_right _ this
    obtain ⟨a, ha, rfl⟩ := List.mem_map.mp hy'
    exact ⟨a, ha, _, rfl⟩
  · rcases k5 with k5 | k5
    · exact .inl k5
    · right
      have hl : l = 8.5 * (10 : ℝ) ^ gridExponent p := by
        have e1 : (gridValues p).getLast? = some l := by
          rw [h5, ← k5, ← List.append_assoc]
          simp
        rw [hs] at e1
        simpa using e1.symm
      refine ⟨?_, ?_⟩
      · rw [hl]
        refine gridExponent_unique (by positivity) ?_ ?_
        · rw [zpow_add_one₀ (by norm_num)]
          linarith
        · rw [zpow_add_one₀ (by norm_num)]
          linarith
      · rw [← hl]
        exact k3 l (by simp)

/-! ## The loop -/

/-- The fixed points per decade. -/
def IsGridPoint (y : ℝ) : Prop := ∃ a ∈ gridPoints, ∃ e : ℤ, y = (a : ℝ) * (10 : ℝ) ^ e

theorem gridStep_end (pre : List ℝ) (p : ℝ) :
    gridStep ⟨pre ++ [p], pre.length, pre.length + 1⟩ = .ok none := by
  unfold gridStep
  rw [if_pos (by simp)]

theorem gridStep_cons (pre : List ℝ) (p x : ℝ) (xs : List ℝ) :
    gridStep ⟨pre ++ p :: x :: xs, pre.length, pre.length + 1⟩
      = if p = 0 ∧ x > 0 then .error .undefined
        else if p ≠ 0 ∧ x / p > 1.25 then
          .ok (some ⟨pre ++ p :: (inserted p x ++ x :: xs), pre.length + (inserted p x).length,
            pre.length + (inserted p x).length + 1⟩)
        else .ok (some ⟨pre ++ p :: x :: xs, pre.length + 1, pre.length + 2⟩) := by
  unfold gridStep
  rw [if_neg (by simp)]
  have h1 : (pre ++ p :: x :: xs)[pre.length]? = some p := by simp
  have h2 : (pre ++ p :: x :: xs)[pre.length + 1]? = some x := by
    rw [List.getElem?_append_right (by omega)]
    simp
  have h3 : (pre ++ p :: x :: xs).take (pre.length + 1) = pre ++ [p] := by
    rw [List.take_append]
    simp
  have h4 : (pre ++ p :: x :: xs).drop (pre.length + 1) = x :: xs := by
    rw [List.drop_append]
    simp
  simp only [h1, h2, h3, h4]
  have h5 : pre.length + 1 + (inserted p x).length - 1 = pre.length + (inserted p x).length := by omega
  rw [h5]
  simp [List.append_assoc]

theorem gridRun_succ {s s' : GridState} (h : gridStep s = .ok (some s')) (n : ℕ) :
    gridRun (n + 1) s = gridRun n s' := by
  rw [gridRun, h]
  rfl

theorem gridRun_end {s : GridState} (h : gridStep s = .ok none) (n : ℕ) :
    gridRun (n + 1) s = .ok (some s.grid) := by
  rw [gridRun, h]
  rfl

/-- More fuel does not change a result. -/
theorem gridRun_mono {n m : ℕ} {s : GridState} {o : Outcome (Option (List ℝ))} (hnm : n ≤ m)
    (ho : o ≠ .ok none) (h : gridRun n s = o) : gridRun m s = o := by
  induction n generalizing m s with
  | zero => exact absurd h.symm ho
  | succ n ih =>
    obtain ⟨m, rfl⟩ : ∃ k, m = k + 1 := ⟨m - 1, by omega⟩
    rw [gridRun] at h ⊢
    simp only [bind, Except.bind] at h ⊢
    cases hs : gridStep s with
    | error e => rw [hs] at h; exact h
    | ok v =>
      rw [hs] at h
      simp only at h ⊢
      cases v with
      | none => exact h
      | some s' => exact ih (by omega) h

/-- The outcome of the loop from a given position. -/
def Refines (pre : List ℝ) (p : ℝ) (rest : List ℝ) : Prop :=
  ∃ fuel out, gridRun fuel ⟨pre ++ p :: rest, pre.length, pre.length + 1⟩
      = .ok (some (pre ++ p :: out)) ∧ (p :: out).IsChain Close ∧ rest.Sublist out ∧
    (∀ y ∈ out, y ∈ rest ∨ IsGridPoint y) ∧ ∀ y ∈ out, ∃ z ∈ rest, y ≤ z

theorem Refines.advance {pre : List ℝ} {p x : ℝ} {xs : List ℝ} (hpx : p < x) (h0 : p ≠ 0)
    (hle : 0 < p → x ≤ 1.25 * p) (h : Refines (pre ++ [p]) x xs) : Refines pre p (x :: xs) := by
  obtain ⟨fuel, out, h1, h2, h3, h4, h5⟩ := h
  have hstep : gridStep ⟨pre ++ p :: x :: xs, pre.length, pre.length + 1⟩
      = .ok (some ⟨pre ++ p :: x :: xs, pre.length + 1, pre.length + 2⟩) := by
    rw [gridStep_cons, if_neg (by simp [h0]), if_neg]
    rintro ⟨-, h⟩
    rcases lt_or_gt_of_ne h0 with hn | hp
    · have h6 : 1.25 * p > x := by
        rw [gt_iff_lt, lt_div_iff_of_neg hn] at h
        linarith
      linarith
    · rw [gt_iff_lt, lt_div_iff₀ hp] at h
      have := hle hp
      linarith
  refine ⟨fuel + 1, x :: out, ?_, .cons_cons ⟨hpx, hle⟩ h2, h3.cons_cons x, ?_, ?_⟩
  · rw [gridRun_succ hstep]
    have e1 : pre ++ p :: x :: xs = (pre ++ [p]) ++ x :: xs := by simp
    have e2 : pre ++ p :: x :: out = (pre ++ [p]) ++ x :: out := by simp
    rw [e1, e2, ← h1]
    simp
  · intro y hy
    rcases List.mem_cons.mp hy with rfl | hy
    · exact .inl List.mem_cons_self
    · exact (h4 y hy).imp_left (List.mem_cons_of_mem _)
  · intro y hy
    rcases List.mem_cons.mp hy with rfl | hy
    · exact ⟨y, List.mem_cons_self, le_rfl⟩
    · obtain ⟨z, hz, hyz⟩ := h5 y hy
      exact ⟨z, List.mem_cons_of_mem _ hz, hyz⟩

theorem Refines.insert {pre : List ℝ} {p x : ℝ} {xs T : List ℝ} {l : ℝ} (hp : 0 < p)
    (hx : 1.25 * p < x) (hins : inserted p x = T ++ [l]) (hch : (p :: (T ++ [l])).IsChain Close)
    (hlt : ∀ y ∈ T ++ [l], p < y ∧ y < x) (hpt : ∀ y ∈ T ++ [l], IsGridPoint y)
    (h : Refines (pre ++ p :: T) l (x :: xs)) : Refines pre p (x :: xs) := by
  obtain ⟨fuel, out, h1, h2, h3, h4, h5⟩ := h
  have hstep : gridStep ⟨pre ++ p :: x :: xs, pre.length, pre.length + 1⟩
      = .ok (some ⟨pre ++ p :: (inserted p x ++ x :: xs), pre.length + (inserted p x).length,
            pre.length + (inserted p x).length + 1⟩) := by
    rw [gridStep_cons, if_neg (by simp [hp.ne']), if_pos]
    refine ⟨hp.ne', ?_⟩
    rw [gt_iff_lt, lt_div_iff₀ hp]
    exact hx
  refine ⟨fuel + 1, T ++ l :: out, ?_, ?_, ?_, ?_, ?_⟩
  · rw [gridRun_succ hstep, hins]
    have e1 : pre ++ p :: (T ++ [l] ++ x :: xs) = (pre ++ p :: T) ++ l :: x :: xs := by simp
    have e2 : pre ++ p :: (T ++ l :: out) = (pre ++ p :: T) ++ l :: out := by simp
    rw [e1, e2, ← h1]
    simp [Nat.add_assoc]
  · rw [← List.cons_append]
    rw [← List.cons_append] at hch
    have := List.isChain_split.mpr ⟨hch, h2⟩
    simpa using this
  · exact (h3.cons l).trans (List.sublist_append_right T _)
  · intro y hy
    rcases List.mem_append.mp hy with hy | hy
    · exact .inr (hpt y (List.mem_append_left _ hy))
    · rcases List.mem_cons.mp hy with rfl | hy
      · exact .inr (hpt y (by simp))
      · exact h4 y hy
  · intro y hy
    rcases List.mem_append.mp hy with hy | hy
    · exact ⟨x, List.mem_cons_self, (hlt y (List.mem_append_left _ hy)).2.le⟩
    · rcases List.mem_cons.mp hy with rfl | hy
      · exact ⟨x, List.mem_cons_self, (hlt y (by simp)).2.le⟩
      · exact h5 y hy

theorem refines (rest : List ℝ) : ∀ (pre : List ℝ) (p : ℝ), (p :: rest).IsChain (· < ·) →
    0 ∉ (p :: rest).dropLast → Refines pre p rest := by
  induction rest with
  | nil =>
    intro pre p _ _
    exact ⟨1, [], gridRun_end (gridStep_end pre p) 0, .singleton _, .slnil, by simp, by simp⟩
  | cons x xs ih =>
    intro pre p hch h0
    obtain ⟨hpx, hxs⟩ := List.isChain_cons_cons.mp hch
    rw [List.dropLast_cons_cons, List.mem_cons, not_or] at h0
    obtain ⟨hp0, h0⟩ := h0
    have adv : ∀ pre p, p < x → p ≠ 0 → (0 < p → x ≤ 1.25 * p) → Refines pre p (x :: xs) :=
      fun pre p h1 h2 h3 => Refines.advance h1 h2 h3 (ih (pre ++ [p]) x hxs h0)
    have main : ∀ (n : ℕ) (pre : List ℝ) (p : ℝ), 0 < p → p < x →
        x ≤ 8.5 * (10 : ℝ) ^ (gridExponent p + n) → Refines pre p (x :: xs) := by
      intro n
      induction n with
      | zero =>
        intro pre p hp hpx hn
        by_cases hle : x ≤ 1.25 * p
        · exact adv pre p hpx hp.ne' fun _ => hle
        · push Not at hle
          obtain ⟨T, l, k1, k2, k3, k4, k5⟩ := inserted_spec hp hle
          refine Refines.insert hp hle k1 k2 k3 k4 ?_
          obtain ⟨k6, k7⟩ := k3 l (by simp)
          rcases k5 with k5 | k5
          · exact adv _ l k7 (hp.trans k6).ne' fun _ => k5
          · simp only [Nat.cast_zero, add_zero] at hn
            linarith [k5.2]
      | succ n ihn =>
        intro pre p hp hpx hn
        by_cases hle : x ≤ 1.25 * p
        · exact adv pre p hpx hp.ne' fun _ => hle
        · push Not at hle
          obtain ⟨T, l, k1, k2, k3, k4, k5⟩ := inserted_spec hp hle
          refine Refines.insert hp hle k1 k2 k3 k4 ?_
          obtain ⟨k6, k7⟩ := k3 l (by simp)
          rcases k5 with k5 | k5
          · exact adv _ l k7 (hp.trans k6).ne' fun _ => k5
          · refine ihn _ l (hp.trans k6) k7 ?_
            rw [k5.1]
            refine hn.trans (le_of_eq ?_)
            congr 2
            push_cast
            ring
    rcases lt_or_gt_of_ne (Ne.symm hp0) with hn | hp
    · exact adv pre p hpx hn.ne fun h => absurd h (not_lt.mpr hn.le)
    · obtain ⟨n, hn⟩ := pow_unbounded_of_one_lt (x / (8.5 * (10 : ℝ) ^ gridExponent p))
        (show (1 : ℝ) < 10 by norm_num)
      refine main n pre p hp hpx ?_
      have h10 : (0 : ℝ) < 8.5 * 10 ^ gridExponent p := by positivity
      rw [div_lt_iff₀ h10] at hn
      rw [zpow_add₀ (by norm_num), zpow_natCast]
      linarith

/-- A zero followed by a positive energy. -/
theorem gridRun_zero (rest : List ℝ) : ∀ (pre : List ℝ) (p : ℝ), (p :: rest).IsChain (· < ·) →
    0 ∈ (p :: rest).dropLast →
    ∃ fuel, gridRun fuel ⟨pre ++ p :: rest, pre.length, pre.length + 1⟩ = .error .undefined := by
  induction rest with
  | nil => intro pre p _ h; simp at h
  | cons x xs ih =>
    intro pre p hch h0
    obtain ⟨hpx, hxs⟩ := List.isChain_cons_cons.mp hch
    by_cases hp : p = 0
    · refine ⟨1, ?_⟩
      rw [gridRun, gridStep_cons, if_pos ⟨hp, hp ▸ hpx⟩]
      rfl
    · rw [List.dropLast_cons_cons, List.mem_cons] at h0
      have h0 := h0.resolve_left (Ne.symm hp)
      have hp' : p < 0 := by
        have h1 : (p :: x :: xs).Pairwise (· < ·) := List.isChain_iff_pairwise.mp hch
        exact List.rel_of_pairwise_cons h1 (List.dropLast_subset _ h0)
      obtain ⟨fuel, h1⟩ := ih (pre ++ [p]) x hxs h0
      have hstep : gridStep ⟨pre ++ p :: x :: xs, pre.length, pre.length + 1⟩
          = .ok (some ⟨pre ++ p :: x :: xs, pre.length + 1, pre.length + 2⟩) := by
        rw [gridStep_cons, if_neg (by simp [hp]), if_neg]
        rintro ⟨-, h⟩
        rw [gt_iff_lt, lt_div_iff_of_neg hp'] at h
        linarith
      refine ⟨fuel + 1, ?_⟩
      rw [gridRun_succ hstep, ← h1]
      simp

end Unresolved

end Verif
