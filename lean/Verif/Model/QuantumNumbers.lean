import Verif.Model.Basic
import Mathlib.Data.Rat.Floor
import Mathlib.Algebra.Order.Floor.Ring
import Mathlib.Data.Nat.Digits.Defs
import Mathlib.Tactic.Linarith

/-!
# Quantum numbers

Spins and total angular momenta are `double` in C++; integers and half-integers of the size met here
are represented exactly, so the model uses rational numbers.
-/

namespace Verif

/-- The loop `while ( max > values.back() ) values.push_back( values.back() + 1.0 )`:
the values pushed after the last one, `v`.
Models `rmatrix/src/possibleChannelSpinValues.hpp:19-22` and
`rmatrix/src/possibleChannelTotalAngularMomentumValues.hpp:24-27,51-54`. -/
def countUp (max v : ℚ) : List ℚ :=
  if max > v then (v + 1) :: countUp max (v + 1) else []
termination_by ⌈max - v⌉.toNat
decreasing_by
  rename_i h
  have h1 : (0 : ℤ) < ⌈max - v⌉ := Int.ceil_pos.mpr (by linarith)
  have h2 : ⌈max - (v + 1)⌉ = ⌈max - v⌉ - 1 := by
    rw [← Int.ceil_sub_one]; congr 1; ring
  omega

/-- Models `possibleChannelSpinValues( i, I )`,
`rmatrix/src/possibleChannelSpinValues.hpp:13-24`. -/
def possibleChannelSpinValues (i I : ℚ) : List ℚ :=
  |i - I| :: countUp (i + I) |i - I|

/-- Models `possibleChannelTotalAngularMomentumValues( l, s )`,
`rmatrix/src/possibleChannelTotalAngularMomentumValues.hpp:44-56`. -/
def possibleJValues (l : ℕ) (s : ℚ) : List ℚ :=
  |(l : ℚ) - s| :: countUp ((l : ℚ) + s) |(l : ℚ) - s|

/-- Models `possibleChannelTotalAngularMomentumValues( l, i, I )`,
`rmatrix/src/possibleChannelTotalAngularMomentumValues.hpp:16-29`. -/
def possibleJValues3 (l : ℕ) (i I : ℚ) : List ℚ :=
  |(|(l : ℚ) - I|) - i| :: countUp ((l : ℚ) + I + i) |(|(l : ℚ) - I|) - i|

/-- Models the class `ChannelQuantumNumbers`, `rmatrix/ChannelQuantumNumbers.hpp:9-15`
and its constructor `ChannelQuantumNumbers/src/ctor.hpp:9-13` (no validation takes place). -/
structure QuantumNumbers where
  l : ℕ
  s : ℚ
  J : ℚ
  parity : ℤ
  deriving DecidableEq, Repr

/-- The parity expression `std::pow( -1, l ) >= 0. ? +1 : -1`,
`rmatrix/src/makeQuantumNumbers.hpp:16`. -/
def parityOfL (l : ℕ) : ℤ := if ((-1 : ℚ) ^ l) ≥ 0 then 1 else -1

/-- Models `makeQuantumNumbers( incident, lmax )`, `rmatrix/src/makeQuantumNumbers.hpp:1-21`.
Simplification: the particle pair is represented by the two spins it is asked for. -/
def makeQuantumNumbers (i I : ℚ) (lmax : ℕ) : List QuantumNumbers :=
  (List.range lmax).flatMap fun l =>
    (possibleChannelSpinValues i I).flatMap fun s =>
      (possibleJValues l s).map fun J => ⟨l, s, J, parityOfL l⟩

/-- Models `retrieveQuantumNumber( l, j, available )`,
`rmatrix/src/makeQuantumNumbers.hpp:23-71`. The reference argument `available` is returned
together with the result. `erase( find_if( == ) )` removes the first equal element
(lines 59-62: `compareNumbers` compares all four fields). -/
def retrieveQuantumNumber (l : ℕ) (j : ℚ) (available : List QuantumNumbers) :
    Outcome (QuantumNumbers × List QuantumNumbers) :=
  match available.filter (fun n => n.l == l && n.J == |j|) with
  | [] => .error .throws
  | [n] => .ok (n, available.erase n)
  | n :: m :: rest =>
    let numbers := if j < 0 then n else (n :: m :: rest).getLast (by simp)
    .ok (numbers, available.erase numbers)

/-- A sequence of lookups against the same list `available`, as performed by the callers of
`retrieveQuantumNumber` (`rmatrix/src/makeReichMooreChannelData.hpp`,
`rmatrix/src/makeLegacyBreitWignerSpinGroups.hpp`,
`rmatrix/src/makeLegacyUnresolvedSpinGroups.hpp`), stopping at the first exception. -/
def retrieveAll : List (ℕ × ℚ) → List QuantumNumbers →
    Outcome (List QuantumNumbers × List QuantumNumbers)
  | [], available => .ok ([], available)
  | (l, j) :: requests, available =>
    match retrieveQuantumNumber l j available with
    | .error e => .error e
    | .ok (q, remaining) =>
      match retrieveAll requests remaining with
      | .error e => .error e
      | .ok (qs, rest) => .ok (q :: qs, rest)

/-- The statistical spin factor computed in the `Channel` constructor,
`rmatrix/Channel/src/ctor.hpp:29-33`. Simplification: a "spin" of -1/2, which nothing rejects, would give
an infinity in C++ and gives zero here. -/
def statisticalSpinFactor (J ia ib : ℚ) : ℚ := (2 * J + 1) / (2 * ia + 1) / (2 * ib + 1)

/-- Decimal digits of a natural number, most significant first. -/
def natString (n : ℕ) : Str :=
  if n = 0 then ['0'] else ((Nat.digits 10 n).map Nat.digitChar).reverse

/-- `std::to_string` on an integer. -/
def intString (n : ℤ) : Str :=
  if n < 0 then '-' :: natString n.natAbs else natString n.natAbs

/-- The lambda `toHalfIntegerString`, `rmatrix/ChannelQuantumNumbers/src/toString.hpp:10-18`.
`std::modf( a, &half )` yields in `half` the value `a` truncated towards zero and returns the
remaining fraction. Simplification: `static_cast<int>` is exact (no overflow). -/
def halfIntegerString (a : ℚ) : Str :=
  let half : ℤ := if 0 ≤ a then ⌊a⌋ else ⌈a⌉
  if a - half = 0 then intString half else intString (2 * half + 1) ++ ['/', '2']

/-- Models `ChannelQuantumNumbers::toString`,
`rmatrix/ChannelQuantumNumbers/src/toString.hpp:8-24`. -/
def QuantumNumbers.toStr (q : QuantumNumbers) : Str :=
  ['{'] ++ natString q.l ++ [','] ++ halfIntegerString q.s ++ [','] ++ halfIntegerString q.J
    ++ (if q.parity > 0 then ['+'] else ['-']) ++ ['}']

/-- Models `Channel::makeChannelID`, `rmatrix/Channel/src/makeChannelID.hpp:1-6`. -/
def makeChannelID (id : Str) (q : QuantumNumbers) : Str := id ++ q.toStr

/-- The T-matrix key `current + "->" + id`, `rmatrix/SpinGroup/src/evaluateTMatrix.hpp:54`. -/
def tMatrixKey (a b : Str) : Str := a ++ ['-', '>'] ++ b

end Verif
