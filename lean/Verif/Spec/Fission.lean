import Verif.Spec.OldReichMoore
import Mathlib.LinearAlgebra.Matrix.Notation

/-!
# Specification: the orientation of fission widths

A Reich-Moore evaluation gives two fission widths for each resonance. Their square roots, with signs, are the
components of a vector in a plane. The directions of the axes have no physical meaning, only the lengths of
the vectors and the angles between those of the same l and J.
-/

namespace Verif.Spec

open Endf

/-- The fission vector of a resonance. -/
noncomputable def fissionVector (r : ReichMooreResonance) : Fin 2 → ℝ :=
  ![fissionAmplitude r.firstFissionWidth, fissionAmplitude r.secondFissionWidth]

/-- The same resonance with its fission vector turned or reflected by a matrix. -/
structure TurnedResonance (q : Matrix (Fin 2) (Fin 2) ℝ) (r r' : ReichMooreResonance) : Prop where
  energy : r.energy = r'.energy
  spin : r.spin = r'.spin
  neutronWidth : r.neutronWidth = r'.neutronWidth
  gammaWidth : r.gammaWidth = r'.gammaWidth
  fission : fissionVector r' = q.mulVec (fissionVector r)

/-- The same l value with its fission vectors turned, for each J in its own way. -/
structure TurnedLValue (q : ℕ → ℚ → Matrix (Fin 2) (Fin 2) ℝ) (lv lv' : ReichMooreLValue) : Prop where
  l : lv.l = lv'.l
  awri : lv.awri = lv'.awri
  apl : lv.apl = lv'.apl
  resonances : List.Forall₂ (fun r r' => TurnedResonance (q lv.l r.spin) r r') lv.resonances lv'.resonances

/-- The same evaluation with its fission vectors turned or reflected, for each l and J in its own way. -/
structure TurnedFission (q : ℕ → ℚ → Matrix (Fin 2) (Fin 2) ℝ) (p p' : ReichMoore) : Prop where
  orthogonal : ∀ l J, (q l J).transpose * q l J = 1
  spin : p.spin = p'.spin
  ap : p.ap = p'.ap
  nlsc : p.nlsc = p'.nlsc
  lValues : List.Forall₂ (TurnedLValue q) p.lValues p'.lValues

end Verif.Spec
