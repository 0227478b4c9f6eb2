import Mathlib.Data.Rat.Defs

/-!
# Outcomes shared by the whole model

The C++ code either returns a value, throws an exception, or has undefined behaviour
(`front()` of an empty vector, a read past the end, an uninitialised member, flowing off the end
of a non-void function).  The three are kept apart.  A fourth outcome, `notFinite`, is used where
the floating-point program keeps running on infinities or NaN (division by zero, the inverse of a
singular matrix, the square root of a negative number): the real-number model has no value there
and says so instead of using a default.
-/

namespace Verif

/-- Ways in which a C++ call can fail to return a value. -/
inductive Failure
  /-- a C++ exception is thrown -/
  | throws
  /-- undefined behaviour -/
  | undefined
  /-- the computed value is an IEEE infinity or NaN -/
  | notFinite
  deriving DecidableEq, Repr

/-- Outcome of a C++ call. -/
abbrev Outcome (α : Type*) := Except Failure α

/-- Outcomes of decidable values can be compared (used by examples only). -/
instance {α : Type*} [DecidableEq α] : DecidableEq (Outcome α)
  | .ok a, .ok b => if h : a = b then .isTrue (h ▸ rfl) else .isFalse (by simpa using h)
  | .error a, .error b => if h : a = b then .isTrue (h ▸ rfl) else .isFalse (by simpa using h)
  | .ok _, .error _ => .isFalse (by simp)
  | .error _, .ok _ => .isFalse (by simp)

/-- `std::string`, as the sequence of its characters. -/
abbrev Str := List Char

end Verif
