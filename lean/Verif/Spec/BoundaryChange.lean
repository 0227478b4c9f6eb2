import Verif.Spec.RMatrix
import Mathlib.Data.Matrix.Diagonal

/-!
# Resonance parameters for other boundary conditions

Barker's transformation of the resonance energies and the reduced width amplitudes
(F. C. Barker, Aust. J. Phys. 25 (1972) 341).
-/

namespace Verif.Spec

/-- Reduced width amplitudes: a row for each of `n` resonances, a column for each of `m` channels. -/
noncomputable def widthMatrix (n m : ℕ) (rs : List Resonance) : Matrix (Fin n) (Fin m) ℝ :=
  Matrix.of fun i c => (rs.getD i ⟨0, [], 0⟩).width c

/-- Resonance energies. -/
noncomputable def energies (n : ℕ) (rs : List Resonance) (i : Fin n) : ℝ := (rs.getD i ⟨0, [], 0⟩).energy

/-- By how much the boundary condition of a channel changes. -/
noncomputable def boundaryShift (channels channels' : List Channel) (c : Fin channels.length) : ℝ :=
  (channels'.map Channel.boundary).getD c 0 - channels[c].boundary

/-- Channels that differ in nothing but their boundary conditions. -/
def SameButBoundary (channels channels' : List Channel) : Prop :=
  List.Forall₂ (fun c c' => c' = { c with boundary := c'.boundary }) channels channels'

/-- Resonances `rs'` for boundary conditions `B'` that are equivalent to resonances `rs` for boundary
conditions `B`, through an orthogonal matrix `Q`: with the amplitudes `γ` as a matrix, `γ' = Q γ`, and
`Q (e - γ (B' - B) γᵀ) Qᵀ` is the diagonal matrix of the energies `e'`. All resonances have the same width for
the eliminated capture channel. -/
structure BoundaryChange {n : ℕ} (Q : Matrix (Fin n) (Fin n) ℝ) (channels channels' : List Channel)
    (rs rs' : List Resonance) : Prop where
  sameChannels : SameButBoundary channels channels'
  length : rs.length = n
  length' : rs'.length = n
  widths' : ∀ r ∈ rs', r.widths.length = channels.length
  orthogonal : Q * Q.transpose = 1
  amplitudes : widthMatrix n channels.length rs' = Q * widthMatrix n channels.length rs
  energies : Matrix.diagonal (Spec.energies n rs') = Q * (Matrix.diagonal (Spec.energies n rs)
    - widthMatrix n channels.length rs * Matrix.diagonal (boundaryShift channels channels')
      * (widthMatrix n channels.length rs).transpose) * Q.transpose
  capture : ∀ r ∈ rs, ∀ r' ∈ rs', r'.eliminated = r.eliminated

end Verif.Spec
