import Verif.Model.OldBreitWigner
import Mathlib.Algebra.BigOperators.Group.List.Basic

/-!
# Property C50: arithmetic on results
-/

namespace Verif

namespace Old

namespace Pack

variable {n : ℕ} {α : Type}

theorem foldl_eq [AddCommMonoid α] (packs : List (Pack n α)) (a : Pack n α) (i : Fin n) :
    accumulate packs a i = a i + (packs.map fun p => p i).sum := by
  unfold accumulate
  induction packs generalizing a with
  | nil => simp
  | cons p packs ih =>
    rw [List.foldl_cons, ih, List.map_cons, List.sum_cons, add, add_assoc]

end Pack

/-- C50: packs form a commutative group under addition and subtraction, and multiplication distributes. -/
theorem C50_pack {n : ℕ} {α : Type} [CommRing α] (a b c : Pack n α) (x y : α) :
    a.add b = b.add a ∧ (a.add b).add c = a.add (b.add c) ∧ (a.add b).sub b = a ∧ (a.sub b).add b = a ∧
      (a.add b).mul x = (a.mul x).add (b.mul x) ∧ (a.sub b).mul x = (a.mul x).sub (b.mul x) ∧
      (a.mul x).mul y = a.mul (x * y) := by
  refine ⟨?_, ?_, ?_, ?_, ?_, ?_, ?_⟩ <;> funext i <;> simp only [Pack.add, Pack.sub, Pack.mul] <;> ring

/-- C50: the order of accumulation does not matter, and every component is the sum of the components. -/
theorem C50_accumulate {n : ℕ} {α : Type} [AddCommMonoid α] {packs packs' : List (Pack n α)}
    (h : packs.Perm packs') (initial : Pack n α) :
    Pack.accumulate packs initial = Pack.accumulate packs' initial ∧
      ∀ i, Pack.accumulate packs initial i = initial i + (packs.map fun p => p i).sum := by
  refine ⟨?_, Pack.foldl_eq packs initial⟩
  funext i
  rw [Pack.foldl_eq, Pack.foldl_eq, (h.map fun p : Pack n α => p i).sum_eq]

/-- C50: cross sections of the older code. -/
theorem C50_cross_section (a b c : CrossSection) :
    a.add b = b.add a ∧ (a.add b).add c = a.add (b.add c) ∧ (a.add b).sub b = a ∧
      (a.sub b).add b = a := by
  refine ⟨?_, ?_, ?_, ?_⟩ <;> ext <;> simp only [CrossSection.add, CrossSection.sub] <;> ring

/-- Two packs of three values in either order. -/
example : Pack.accumulate [![1, 2, 3], ![10, 20, 30]] ![(100 : ℤ), 0, 0]
    = Pack.accumulate [![10, 20, 30], ![1, 2, 3]] ![100, 0, 0] :=
  (C50_accumulate (List.Perm.swap _ _ _) _).1

example : Pack.accumulate [![1, 2, 3], ![10, 20, 30]] ![(100 : ℤ), 0, 0] = ![111, 22, 33] := by
  decide

end Old

/-- C50: the data records of the legacy part. -/
theorem C50_data {α : Type} [AddCommGroup α] (a b c : Data α) :
    a.add b = b.add a ∧ (a.add b).add c = a.add (b.add c) ∧ (a.add b).sub b = a ∧
      (a.sub b).add b = a := by
  refine ⟨?_, ?_, ?_, ?_⟩ <;> ext <;> simp only [Data.add, Data.sub] <;> abel

/-- C50: accumulating data records in another order gives the same. -/
theorem C50_data_accumulate {α : Type} [AddCommGroup α] {l l' : List (Data α)} (h : l.Perm l')
    (initial : Data α) : l.foldl Data.add initial = l'.foldl Data.add initial := by
  have : RightCommutative (Data.add (α := α)) := ⟨fun a b c => by
    rw [(C50_data a b c).2.1, (C50_data b c c).1, ← (C50_data a c b).2.1]⟩
  exact h.foldl_eq initial

example : ([⟨1, 2, 3, 4⟩, ⟨5, 6, 7, 8⟩] : List (Data ℤ)).foldl Data.add ⟨1, 1, 1, 1⟩
    = ⟨7, 9, 11, 13⟩ := rfl

end Verif
