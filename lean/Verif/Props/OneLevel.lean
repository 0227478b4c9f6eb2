import Verif.Lemmas.OneLevel
import Verif.Props.SpinGroup

/-!
# Property C73: a single resonance has the cross sections of the single-level Breit-Wigner formula
-/

namespace Verif

open Complex

section

variable {option : BoundaryOption} {K : Constants} {lib : CoulombLibrary} {g : SpinGroup} {E : ℝ}
  {cache cache' : MatrixCache g.channels.length} {result result' : CrossSectionMap} {r : Resonance}

/-- C73: a spin group with a single resonance adds to each of its reactions the cross section of the
single-level Breit-Wigner formula, whose widths are those of the resonance at this energy. -/
theorem C73_single_level (hg : g.Built) (hr : g.table.resonances = [r])
    (h : g.evaluate option K lib E cache result = .ok (result', cache')) :
    ∃ P S w phi, Spec.Evaluable option K lib g.channels [r] E P S w phi ∧
      ∀ id, result' id =
        if id ∈ g.channels.map Channel.reaction ∨ Spec.captureID g.channels = some id then
          some ((result id).getD 0 + Spec.oneLevel option K g.channels r E P S w phi id)
        else result id := by
  obtain ⟨P, S, w, phi, hev, hres⟩ := evaluate_ok hg h
  rw [hr] at hev
  refine ⟨P, S, w, phi, hev, fun id => ?_⟩
  rw [hres, hr, contribution_oneLevel (hev.noPole r List.mem_cons_self) hev.nonneg hev.invertible]
  obtain ⟨-, first, rest, h2, h3, -⟩ := hg.incident
  have : id ∈ g.reactions ↔
      id ∈ g.channels.map Channel.reaction ∨ Spec.captureID g.channels = some id := by
    rw [h3, List.mem_append, List.mem_singleton, captureID_eq h2, Option.some.injEq, eq_comm (a := id)]
  simp only [this]

open Example in
example (option : BoundaryOption) (lib : CoulombLibrary)
    (cache : MatrixCache lossless.channels.length) :
    ∃ m c P S w phi, lossless.evaluate option constants lib 2 cache (fun _ => none) = .ok (m, c) ∧
      m (.elastic "n,T".toList) = some (Spec.oneLevel option constants lossless.channels
        ⟨1, [1 / 2, 1 / 3, 1 / 5], 0⟩ 2 P S w phi (.elastic "n,T".toList)) := by
  obtain ⟨⟨m, c⟩, h⟩ := (lossless_evaluates option lib cache (fun _ => none) (fun _ => none)).1
  obtain ⟨P, S, w, phi, -, hm⟩ := C73_single_level lossless_built rfl h
  refine ⟨m, c, P, S, w, phi, h, ?_⟩
  have : ReactionID.elastic "n,T".toList ∈ lossless.channels.map Channel.reaction :=
    List.mem_map.mpr ⟨elastic, by simp [lossless, group, channels], rfl⟩
  rw [hm, if_pos (Or.inl this)]
  simp

end

end Verif
