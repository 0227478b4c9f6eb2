import Verif.Spec.OldSystem
import Mathlib.LinearAlgebra.Matrix.NonsingularInverse

/-!
# Specification of the Reich-Moore formula with one neutron and two fission channels

See the ENDF-6 manual, D.1.3.
-/

namespace Verif.Spec

open Complex

/-- A resonance as it is seen at one energy: its energy and capture width, and the square roots of the
neutron and fission widths, with signs. -/
structure CoupledLevel where
  energy : ℝ
  capture : ℝ
  amplitude : Fin 3 → ℝ

/-- The matrix `K = i/2 Σ_r Γ_ri^(1/2) Γ_rj^(1/2) / (E_r - E - i Γ_rγ / 2)`. -/
noncomputable def reichMooreK (E : ℝ) (levels : List CoupledLevel) : Matrix (Fin 3) (Fin 3) ℂ :=
  Matrix.of fun i j => (levels.map fun r =>
    I / 2 * (r.amplitude i * r.amplitude j) / ((r.energy : ℂ) - E - I * r.capture / 2)).sum

/-- The collision matrix `U = exp(-2iφ) (2 (1 - K)⁻¹ - 1)`. Only its first row is used. -/
noncomputable def reichMooreCollision (φ E : ℝ) (levels : List CoupledLevel) :
    Matrix (Fin 3) (Fin 3) ℂ :=
  exp (-(2 * I * φ)) • ((2 : ℂ) • (1 - reichMooreK E levels)⁻¹ - 1)

/-- The parameters of a resonance of an evaluation, with its penetrability at its own energy. The sign of
J tells apart the channel spins. -/
structure Coupled where
  J : ℚ
  energy : ℝ
  elastic : ℝ
  capture : ℝ
  fissionA : ℝ
  fissionB : ℝ
  penetrability : ℝ

/-- The square root of a fission width, with its sign. -/
noncomputable def fissionAmplitude (width : ℝ) : ℝ :=
  if width < 0 then -Real.sqrt (-width) else Real.sqrt width

/-- The level at an energy with penetrability `p`. -/
noncomputable def Coupled.level (p : ℝ) (a : Coupled) : CoupledLevel :=
  ⟨a.energy, a.capture, ![Real.sqrt (a.elastic * p / a.penetrability), fissionAmplitude a.fissionA,
    fissionAmplitude a.fissionB]⟩

/-- A partial wave at one energy: penetrability and phase shift. -/
structure CoupledWave where
  l : ℕ
  p : ℝ
  φ : ℝ

/-- The collision matrix of the resonances with one (signed) J. -/
noncomputable def collisionOf (E : ℝ) (w : CoupledWave) (as : List Coupled) (J : ℚ) :
    Matrix (Fin 3) (Fin 3) ℂ :=
  reichMooreCollision w.φ E ((as.filter fun a => a.J = J).map (Coupled.level w.p))

/-- Elastic scattering of a partial wave, in units of `π/k²`: what is not covered by the statistical factors
of the resonances is potential scattering. -/
noncomputable def coupledElastic (I : ℚ) (E : ℝ) (w : CoupledWave) (as : List Coupled) : ℝ :=
  ∑ J ∈ (as.map Coupled.J).toFinset, (neutronFactor I |J| : ℝ) * normSq (1 - collisionOf E w as J 0 0)
  + (2 * w.l + 1 - ∑ J ∈ (as.map Coupled.J).toFinset, (neutronFactor I |J| : ℝ))
    * (4 * Real.sin w.φ ^ 2)

/-- Fission of a partial wave. -/
noncomputable def coupledFission (I : ℚ) (E : ℝ) (w : CoupledWave) (as : List Coupled) : ℝ :=
  ∑ J ∈ (as.map Coupled.J).toFinset, (neutronFactor I |J| : ℝ)
    * (normSq (collisionOf E w as J 0 1) + normSq (collisionOf E w as J 0 2))

/-- Capture of a partial wave: what is missing from the channels. -/
noncomputable def coupledCapture (I : ℚ) (E : ℝ) (w : CoupledWave) (as : List Coupled) : ℝ :=
  ∑ J ∈ (as.map Coupled.J).toFinset, (neutronFactor I |J| : ℝ)
    * (1 - ∑ j, normSq (collisionOf E w as J 0 j))

/-! ## Evaluations -/

open Endf

/-- The parameters of a resonance of an l value. -/
structure IsCoupled (k : ℝ → ℝ) (channel : ℝ → Outcome ℝ) (l : ℕ) (r : ReichMooreResonance)
    (a : Coupled) : Prop where
  J : a.J = r.spin
  energy : a.energy = r.energy
  elastic : a.elastic = r.neutronWidth
  capture : a.capture = r.gammaWidth
  fissionA : a.fissionA = r.firstFissionWidth
  fissionB : a.fissionB = r.secondFissionWidth
  own : ∃ radius, channel |r.energy| = .ok radius ∧
    a.penetrability = penetration l (k r.energy * radius)

/-- The partial wave of an l value at the energy `E`, and the parameters of all its resonances. -/
structure IsCoupledWave (k : ℝ → ℝ) (channel scattering : ℝ → Outcome ℝ) (E : ℝ) (lv : ReichMooreLValue)
    (w : CoupledWave) (as : List Coupled) : Prop where
  l : w.l = lv.l
  own : ∃ radius, channel E = .ok radius ∧ w.p = penetration lv.l (k E * radius)
  phase : ∃ radius, scattering E = .ok radius ∧
    Complex.exp (2 * Complex.I * w.φ) = hardSpherePhase (k E * radius) lv.l
  resonances : List.Forall₂ (IsCoupled k channel lv.l) lv.resonances as

/-- The radius of an l value: the one given for it, if there is one and it is to be used. -/
noncomputable def lRadius (use : Bool) (lv : ReichMooreLValue) (radius : ℝ → Outcome ℝ) : ℝ → Outcome ℝ :=
  if use ∧ lv.apl ≠ 0 then fun _ => .ok lv.apl else radius

end Verif.Spec
