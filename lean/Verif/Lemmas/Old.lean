import Verif.Props.HardSphere
import Verif.Props.Arithmetic
import Verif.Lemmas.Endf
import Verif.Lemmas.CompoundSystem
import Verif.Lemmas.Legacy
import Verif.Spec.Old
import Mathlib.Algebra.BigOperators.Group.Finset.Basic

/-!
# Lemmas for the older code
-/

namespace Verif

namespace Old

open Spec (penetration)

theorem oldPenetrationShift_eq {l : ℕ} (hl : l ≤ 4) (ρ : ℝ) :
    oldPenetrationShift l ρ = .ok (penetration l ρ, (Spec.hardSphere ρ l).2) := by
  obtain ⟨p, s, φ, h1, h2, -, h3, -⟩ := C13_old_equals_new (fun _ _ _ => .ok ⟨0, 0, 0, 0⟩) l hl ρ 0
  rw [calculatePenetrability_eq _ hl] at h1
  rw [calculateShiftFactor_eq _ hl] at h2
  rw [h3, Spec.penetration, hardSphere_eq hl, Except.ok.inj h1, Except.ok.inj h2]

theorem oldPenetrationShift_ok {l : ℕ} {ρ : ℝ} {ps : ℝ × ℝ} (h : oldPenetrationShift l ρ = .ok ps) :
    l ≤ 4 ∧ ps = (penetration l ρ, (Spec.hardSphere ρ l).2) := by
  have hl : l ≤ 4 := by
    by_contra hl
    rw [(C10_rejection_old l ρ).1.mpr (Or.inr (by omega))] at h
    cases h
  rw [oldPenetrationShift_eq hl] at h
  exact ⟨hl, (Except.ok.inj h).symm⟩

theorem oldPhaseShift_ok {l : ℕ} {ρ φ : ℝ} (h : oldPhaseShift l ρ = .ok φ) :
    Complex.exp (2 * Complex.I * φ) = Spec.hardSpherePhase ρ l := by
  have hl : l ≤ 4 := by
    by_contra hl
    rw [(C10_rejection_old l ρ).2.1.mpr (Or.inr (by omega))] at h
    cases h
  obtain ⟨p, s, φ', -, -, h1, -, h2⟩ := C13_old_equals_new (fun _ _ _ => .ok ⟨0, 0, 0, 0⟩) l hl ρ 0
  rw [h] at h2
  obtain rfl := Except.ok.inj h2
  exact C11_phase_recursion _ l hl ρ 0 φ h1

theorem hardSphere_pos {ρ : ℝ} (h : 0 < ρ) (l : ℕ) : 0 < (Spec.hardSphere ρ l).1 := by
  induction l with
  | zero => exact h
  | succ l ih =>
    simp only [Spec.hardSphere]
    positivity

theorem penetration_nonneg (l : ℕ) (ρ : ℝ) : 0 ≤ penetration l ρ := by
  unfold Spec.penetration
  split
  · exact (hardSphere_pos ‹_› l).le
  · exact le_refl _

/-! ## Groups -/

variable {α : Type} (key : α → ℝ)

theorem groupBy_cons (x : α) (xs : List α) : groupBy key (x :: xs)
    = (x :: xs.takeWhile fun y => key x = key y) :: groupBy key (xs.dropWhile fun y => key x = key y) := by
  rw [groupBy]

theorem groupBy_ne_nil {l : List α} {g : List α} (h : g ∈ groupBy key l) : g ≠ [] := by
  induction l using groupBy.induct (key := key) with
  | case1 => rw [groupBy] at h; cases h
  | case2 x xs ih =>
    rw [groupBy_cons, List.mem_cons] at h
    rcases h with rfl | h
    · simp
    · exact ih h

theorem groupBy_mem {l : List α} {g : List α} (h : g ∈ groupBy key l) {x : α} (hx : x ∈ g) : x ∈ l := by
  induction l using groupBy.induct (key := key) with
  | case1 => rw [groupBy] at h; cases h
  | case2 y ys ih =>
    rw [groupBy_cons, List.mem_cons] at h
    rcases h with rfl | h
    · rcases List.mem_cons.mp hx with rfl | hx
      · exact List.mem_cons_self
      · exact List.mem_cons_of_mem _ ((List.takeWhile_sublist _).mem hx)
    · exact List.mem_cons_of_mem _ ((List.dropWhile_sublist _).mem (ih h))

/-- For a sorted list a prefix of equal keys is all there is with that key. -/
theorem takeWhile_eq_filter {x : α} {xs : List α} (h : (x :: xs).Pairwise fun a b => key a ≤ key b) :
    (xs.takeWhile fun y => key x = key y) = xs.filter (fun y => key x = key y) ∧
    (xs.dropWhile fun y => key x = key y) = xs.filter (fun y => ¬ key x = key y) := by
  induction xs with
  | nil => simp
  | cons y ys ih =>
    by_cases hxy : key x = key y
    · have h' : (x :: ys).Pairwise fun a b => key a ≤ key b := by
        refine h.sublist ?_
        exact List.Sublist.cons_cons x (List.sublist_cons_self y ys)
      obtain ⟨h1, h2⟩ := ih h'
      simp only [List.takeWhile_cons, List.dropWhile_cons, List.filter_cons, hxy, decide_true, if_true,
        not_true_eq_false, decide_false] at h1 h2 ⊢
      exact ⟨by rw [h1], h2⟩
    · have hall : ∀ z ∈ y :: ys, ¬ key x = key z := by
        intro z hz he
        rw [List.pairwise_cons, List.pairwise_cons] at h
        have h1 := h.1 y List.mem_cons_self
        rcases List.mem_cons.mp hz with rfl | hz
        · exact hxy he
        · exact hxy (le_antisymm h1 (he ▸ h.2.1 z hz))
      constructor
      · rw [List.takeWhile_cons]
        simp only [hxy, decide_false]
        rw [eq_comm, List.filter_eq_nil_iff.mpr]
        · simp
        · intro z hz
          simpa using hall z hz
      · rw [List.dropWhile_cons]
        simp only [hxy, decide_false]
        rw [eq_comm, List.filter_eq_self.mpr]
        · simp
        · intro z hz
          simpa using hall z hz

/-- The groups of a sorted list, one for every key. -/
theorem groupBy_eq {l : List α} (h : l.Pairwise fun a b => key a ≤ key b) : ∃ ks : List ℝ, ks.Nodup ∧
    ks.toFinset = (l.map key).toFinset ∧
    groupBy key l = ks.map fun k => l.filter fun y => k = key y := by
  induction l using groupBy.induct (key := key) with
  | case1 => exact ⟨[], List.nodup_nil, by simp, by simp [groupBy]⟩
  | case2 x xs ih =>
    obtain ⟨h1, h2⟩ := takeWhile_eq_filter key h
    obtain ⟨ks, i1, i2, i3⟩ := ih (by
      rw [h2]
      exact (List.pairwise_cons.mp h).2.filter _)
    have hmem : ∀ k ∈ ks, ∃ y ∈ xs, ¬ key x = key y ∧ key y = k := by
      intro k hk
      rw [← List.mem_toFinset, i2, h2] at hk
      simp only [List.mem_toFinset, List.mem_map, List.mem_filter, decide_eq_true_eq] at hk
      obtain ⟨y, ⟨hy, hxy⟩, rfl⟩ := hk
      exact ⟨y, hy, hxy, rfl⟩
    refine ⟨key x :: ks, List.nodup_cons.mpr ⟨?_, i1⟩, ?_, ?_⟩
    · intro hk
      obtain ⟨y, -, hxy, he⟩ := hmem _ hk
      exact hxy he.symm
    · rw [List.toFinset_cons, i2, h2]
      ext k
      simp only [List.map_cons, List.toFinset_cons, Finset.mem_insert, List.mem_toFinset, List.mem_map,
        List.mem_filter, decide_eq_true_eq]
      constructor
      · rintro (rfl | ⟨y, ⟨hy, -⟩, rfl⟩)
        · exact Or.inl rfl
        · exact Or.inr ⟨y, hy, rfl⟩
      · rintro (rfl | ⟨y, hy, rfl⟩)
        · exact Or.inl rfl
        · by_cases hk : key x = key y
          · exact Or.inl hk.symm
          · exact Or.inr ⟨y, ⟨hy, hk⟩, rfl⟩
    · rw [groupBy_cons, i3, h1, List.map_cons, List.filter_cons, if_pos (by simp)]
      congr 1
      refine List.map_congr_left fun k hk => ?_
      obtain ⟨y, -, hxy, rfl⟩ := hmem k hk
      rw [h2, List.filter_cons, if_neg (by simpa using fun h => hxy h.symm), List.filter_filter]
      refine List.filter_congr fun z hz => ?_
      by_cases hz : key y = key z
      · simp [← hz, hxy]
      · simp [hz]

theorem groupBy_sum {M : Type} [AddCommMonoid M] (F : List α → M) {l : List α}
    (h : l.Pairwise fun a b => key a ≤ key b) :
    ((groupBy key l).map F).sum
      = ∑ k ∈ (l.map key).toFinset, F (l.filter fun y => k = key y) := by
  obtain ⟨ks, h1, h2, h3⟩ := groupBy_eq key h
  rw [h3, ← h2, List.map_map, List.sum_toFinset _ h1]
  rfl

/-- The component sums of results. -/
theorem mapM_sum {β : Type} {n : ℕ} {f : β → Outcome (Pack n ℝ)} {l : List β} {r : List (Pack n ℝ)}
    {F : β → ℝ} (i : Fin n) (h : l.mapM f = .ok r) (hF : ∀ b ∈ l, ∀ v, f b = .ok v → v i = F b) :
    (r.map fun p => p i).sum = (l.map F).sum := by
  rw [mapM_ok] at h
  induction h with
  | nil => rfl
  | @cons b v l r h1 _ ih =>
    rw [List.map_cons, List.map_cons, List.sum_cons, List.sum_cons, hF b List.mem_cons_self v h1,
      ih fun b hb => hF b (List.mem_cons_of_mem _ hb)]

theorem forall₂_mem {β γ : Type} {R : β → γ → Prop} {bs : List β} {cs : List γ} (h : List.Forall₂ R bs cs)
    {b : β} (hb : b ∈ bs) : ∃ c ∈ cs, R b c := by
  induction h with
  | nil => cases hb
  | @cons b' c' bs cs h1 _ ih =>
    rcases List.mem_cons.mp hb with rfl | hb
    · exact ⟨c', List.mem_cons_self, h1⟩
    · obtain ⟨c, hc, h⟩ := ih hb
      exact ⟨c, List.mem_cons_of_mem _ hc, h⟩

/-- Sums label by label. -/
theorem sum_labels {β ι : Type} [DecidableEq ι] (label : β → ι) (weight : ι → ℝ) (f : β → ℝ) (l : List β)
    {S : Finset ι} (hS : ∀ b ∈ l, label b ∈ S) :
    ∑ J ∈ S, weight J * ((l.filter fun b => label b = J).map f).sum
      = (l.map fun b => weight (label b) * f b).sum := by
  induction l with
  | nil => simp
  | cons b l ih =>
    rw [List.map_cons, List.sum_cons, ← ih fun b hb => hS b (List.mem_cons_of_mem _ hb)]
    have h1 : ∀ J, weight J * (((b :: l).filter fun b => label b = J).map f).sum
        = (if J = label b then weight J * f b else 0)
          + weight J * ((l.filter fun b => label b = J).map f).sum := by
      intro J
      by_cases hJ : label b = J
      · rw [List.filter_cons, if_pos (by simpa using hJ), List.map_cons, List.sum_cons, if_pos hJ.symm,
          mul_add]
      · rw [List.filter_cons, if_neg (by simpa using hJ), if_neg fun h => hJ h.symm, zero_add]
    simp only [h1, Finset.sum_add_distrib]
    rw [Finset.sum_ite_eq' S (label b), if_pos (hS b List.mem_cons_self)]

/-- Sums over the groups of a sorted list whose elements belong to elements with a label. -/
theorem group_sum {β ι : Type} [DecidableEq ι] {R : β → α → Prop} {label : β → ι} {code : ι → ℝ}
    {key : α → ℝ} (hcode : Function.Injective code) (hR : ∀ b a, R b a → key a = code (label b))
    {bs : List β} {as : List α} (hm : List.Forall₂ R bs as)
    (hsort : as.Pairwise fun a b => key a ≤ key b) {n : ℕ} {f : List α → Outcome (Pack n ℝ)}
    {vs : List (Pack n ℝ)} (h : (groupBy key as).mapM f = .ok vs) {F : ι → ℝ} {c : ℝ} (i : Fin n)
    (hF : ∀ J as' x, List.Forall₂ R (bs.filter fun b => label b = J) as' → f as' = .ok x → c * x i = F J) :
    c * (vs.map fun p => p i).sum = ∑ J ∈ (bs.map label).toFinset, F J := by
  obtain ⟨ks, k1, k2, k3⟩ := groupBy_eq key hsort
  have hkeys : as.map key = (bs.map label).map code := by
    clear hsort h hF k1 k2 k3
    induction hm with
    | nil => rfl
    | cons h1 _ ih => rw [List.map_cons, List.map_cons, List.map_cons, ih, hR _ _ h1]
  have hset : (as.map key).toFinset = (bs.map label).toFinset.image code := by
    rw [hkeys]
    ext x
    simp
  have hfilter : ∀ J, List.Forall₂ R (bs.filter fun b => label b = J)
      (as.filter fun a => code J = key a) := by
    intro J
    refine List.rel_filter ?_ hm
    intro b a hba
    simp only [decide_eq_true_eq]
    rw [hR b a hba]
    exact ⟨fun h => by rw [h], fun h => hcode h.symm⟩
  set G : List α → ℝ := fun g => match f g with
    | .ok x => c * x i
    | .error _ => 0 with hG
  have h1 : c * (vs.map fun p => p i).sum = ((groupBy key as).map G).sum := by
    have := mapM_ok.mp h
    clear h k3
    generalize groupBy key as = gs at this
    induction this with
    | nil => simp
    | cons h1 _ ih =>
      rw [List.map_cons, List.map_cons, List.sum_cons, List.sum_cons, mul_add, ih]
      congr 1
      simp only [hG, h1]
  rw [h1, groupBy_sum key G hsort, hset, Finset.sum_image fun x _ y _ h => hcode h]
  refine Finset.sum_congr rfl fun J hJ => ?_
  have hmem : (as.filter fun a => code J = key a) ∈ groupBy key as := by
    rw [k3]
    refine List.mem_map.mpr ⟨code J, ?_, rfl⟩
    rw [← List.mem_toFinset, k2, hset]
    exact Finset.mem_image_of_mem code hJ
  obtain ⟨x, hx⟩ := mapM_exists.mp ⟨vs, h⟩ _ hmem
  simp only [hG, hx]
  exact hF J _ x (hfilter J) hx

end Old

end Verif
