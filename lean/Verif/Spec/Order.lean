import Verif.Model.Reconstructor
import Verif.Spec.Endf

/-!
# Specification: the same evaluation in another order

The order in which an evaluation lists its l values, J values, spin groups and resonances has no physical
meaning.
-/

namespace Verif.Spec

open Endf

/-- The same list in another order, where elements may be replaced by related ones. -/
def Relisted {α β : Type} (R : α → β → Prop) (xs : List α) (ys : List β) : Prop :=
  ∃ zs, List.Forall₂ R xs zs ∧ zs.Perm ys

/-- The same l value with its resonances in another order. -/
structure SameResolved (lv lv' : BreitWignerLValue) : Prop where
  l : lv.l = lv'.l
  awri : lv.awri = lv'.awri
  qx : lv.qx = lv'.qx
  lrx : lv.lrx = lv'.lrx
  resonances : lv.resonances.Perm lv'.resonances

/-- The same Breit-Wigner evaluation with the l values and their resonances in another order. -/
structure SameBreitWigner (p p' : BreitWigner) : Prop where
  spin : p.spin = p'.spin
  ap : p.ap = p'.ap
  lValues : Relisted SameResolved p.lValues p'.lValues

/-- The same l value with its resonances in another order. -/
structure SameCoupled (lv lv' : ReichMooreLValue) : Prop where
  l : lv.l = lv'.l
  awri : lv.awri = lv'.awri
  apl : lv.apl = lv'.apl
  resonances : lv.resonances.Perm lv'.resonances

/-- The same Reich-Moore evaluation with the l values and their resonances in another order. -/
structure SameReichMoore (p p' : ReichMoore) : Prop where
  spin : p.spin = p'.spin
  ap : p.ap = p'.ap
  nlsc : p.nlsc = p'.nlsc
  lValues : Relisted SameCoupled p.lValues p'.lValues

/-- The same l value with its J values in another order. -/
structure SameAverage {J : Type} (lv lv' : UnresolvedLValue J) : Prop where
  l : lv.l = lv'.l
  awri : lv.awri = lv'.awri
  jValues : lv.jValues.Perm lv'.jValues

/-- The same average parameters with the l values and their J values in another order. -/
structure SameUnresolved {J : Type} (p p' : UnresolvedParameters J) : Prop where
  spin : p.spin = p'.spin
  ap : p.ap = p'.ap
  energies : p.energies = p'.energies
  lValues : Relisted SameAverage p.lValues p'.lValues

/-- The same spin group with its resonances in another order. -/
structure SameRecord (g g' : SpinGroupRecord) : Prop where
  spin : g.spin = g'.spin
  parity : g.parity = g'.parity
  channels : g.channels = g'.channels
  numberResonances : g.numberResonances = g'.numberResonances
  resonances : g.resonances.Perm g'.resonances

/-- The same R-matrix-limited evaluation with the spin groups and their resonances in another order. -/
structure SameRMatrix (p p' : RMatrixLimited) : Prop where
  formalism : p.formalism = p'.formalism
  reducedWidths : p.reducedWidths = p'.reducedWidths
  pairs : p.pairs = p'.pairs
  spinGroups : Relisted SameRecord p.spinGroups p'.spinGroups

/-- Unresolved parameters of any form in another order. -/
inductive SameUnresolvedParameters : Endf.Parameters → Endf.Parameters → Prop
  | constant {p p'} (h : SameUnresolved p p') :
      SameUnresolvedParameters (.unresolvedConstant p) (.unresolvedConstant p')
  | fission {p p'} (h : SameUnresolved p p') :
      SameUnresolvedParameters (.unresolvedFission p) (.unresolvedFission p')
  | dependent {p p'} (h : SameUnresolved p p') :
      SameUnresolvedParameters (.unresolvedDependent p) (.unresolvedDependent p')

/-- The same cross sections. Reactions that are not reported have none. -/
def SameCrossSections (m m' : ReactionMap) : Prop := ∀ id, (m id).getD 0 = (m' id).getD 0

end Verif.Spec
