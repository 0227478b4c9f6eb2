import Verif.Props.PotentialScattering
import Verif.Props.BoundaryChangeT
import Verif.Props.SymmetryT
import Verif.Props.Shadow

/-!
# Property C104 for compound systems and for the T-matrix
-/

namespace Verif

open Complex Matrix

variable {option : BoundaryOption} {K : Constants} {lib : CoulombLibrary} {E : ℝ}

/-- No resonance of the group has a width in a channel, or the channel is closed. -/
def Spec.Uncoupled (g : SpinGroup) (E : ℝ) (c : Fin g.channels.length) : Prop :=
  ∀ r ∈ g.table.resonances, g.channels[c].belowThreshold E ∨ r.width c = 0

/-- C104, T-matrix: the elements from and to a channel that is closed, or in which no resonance has a width, are
zero. -/
theorem C104_t_matrix {g : SpinGroup} {cache cache' : MatrixCache g.channels.length} {start m : Str → Option ℂ}
    (hg : g.Built) (harrow : ∀ c ∈ g.channels, ¬ ContainsArrow c.id)
    (h : g.evaluateTMatrix option K lib E cache start = .ok (m, cache')) {c : Fin g.channels.length}
    (hc : Spec.Uncoupled g E c) (c' : Fin g.channels.length) :
    m (tMatrixKey g.channels[c].id g.channels[c'].id) = some 0 ∧
      m (tMatrixKey g.channels[c'].id g.channels[c].id) = some 0 := by
  obtain ⟨P, S, hP, hS, hnn, hwid, hdet, hel, hrest⟩ := evaluateTMatrix_ok hg harrow h
  have h0 := tMatrix_uncoupled hdet hc c'
  refine ⟨by rw [hel, h0], ?_⟩
  exact (C17_symmetric hg harrow h g.channels[c'] g.channels[c] (List.getElem_mem _)
    (List.getElem_mem _)).1.trans (by rw [hel, h0])

/-- The potential scattering of the incident channels of a spin group, by reaction: `π/k² g |1 - exp(i (w - 2φ))|²`
for each of them with its Coulomb phase shift `w` and its hard-sphere phase shift `φ`. -/
def Spec.IsPotentialScattering (K : Constants) (lib : CoulombLibrary) (channels : List Channel) (E : ℝ)
    (x : ReactionID → ℝ) : Prop :=
  ∃ w phi : Fin channels.length → ℝ,
    (∀ i : Fin channels.length, channels[i].coulombPhaseShift K E = .ok (w i) ∧
      channels[i].phaseShift K lib E = .ok (phi i)) ∧
    ∀ id, x id = ∑ c : Fin channels.length,
      if channels[c].isIncident ∧ channels[c].reaction = id then
        Spec.incidentFactor K channels E * normSq (1 - exp (I * (w c - 2 * phi c))) else 0

/-- C104, compound systems: without widths in the open incident channels, the cross sections are the sums of the
potential scattering of the spin groups. -/
theorem C104_system {s s' : CompoundSystem} {result result' : CrossSectionMap}
    (hg : ∀ st ∈ s, st.group.Built)
    (hz : ∀ st ∈ s, ∀ c : Fin st.group.channels.length, st.group.channels[c].isIncident →
      Spec.Uncoupled st.group E c)
    (h : CompoundSystem.evaluate option K lib E s result = .ok (result', s')) :
    ∃ xs : List (ReactionID → ℝ),
      List.Forall₂ (fun st x => Spec.IsPotentialScattering K lib st.group.channels E x) s xs ∧
      ∀ id, (result' id).getD 0 = (result id).getD 0 + (xs.map fun x => x id).sum := by
  induction s generalizing result s' with
  | nil =>
    cases h
    exact ⟨[], .nil, fun id => by simp⟩
  | cons st rest ih =>
    obtain ⟨r, cache, rest', h1, h2, -⟩ := evaluate_cons_ok.mp h
    obtain ⟨w, phi, hp, hm⟩ := C104_spin_group (hg st List.mem_cons_self) h1
      fun r hr c hc => hz st List.mem_cons_self c hc r hr
    obtain ⟨xs, hxs, hsum⟩ := ih (fun t ht => hg t (List.mem_cons_of_mem _ ht))
      (fun t ht => hz t (List.mem_cons_of_mem _ ht)) h2
    refine ⟨_ :: xs, .cons ⟨w, phi, hp, fun _ => rfl⟩ hxs, fun id => ?_⟩
    rw [hsum id, hm id, List.map_cons, List.sum_cons, add_assoc]

/-- C104, compound systems: a reaction that is not the elastic one gets nothing. -/
theorem C104_system_other {s s' : CompoundSystem} {result result' : CrossSectionMap}
    (hg : ∀ st ∈ s, st.group.Built)
    (hz : ∀ st ∈ s, ∀ c : Fin st.group.channels.length, st.group.channels[c].isIncident →
      Spec.Uncoupled st.group E c)
    (h : CompoundSystem.evaluate option K lib E s result = .ok (result', s')) {id : ReactionID}
    (hid : ∀ st ∈ s, ∀ c ∈ st.group.channels, c.pair.id = c.incident.id → c.reaction ≠ id) :
    (result' id).getD 0 = (result id).getD 0 := by
  obtain ⟨xs, hxs, hsum⟩ := C104_system hg hz h
  rw [hsum id, List.sum_eq_zero, add_zero]
  intro y hy
  obtain ⟨x, hx, rfl⟩ := List.mem_map.mp hy
  obtain ⟨i, hi, rfl⟩ := List.getElem_of_mem hx
  have hi' : i < s.length := hxs.length_eq ▸ hi
  obtain ⟨w, phi, -, hx⟩ := (List.forall₂_iff_get.mp hxs).2 i hi' hi
  simp only [List.get_eq_getElem] at hx
  rw [hx id]
  refine Finset.sum_eq_zero fun c _ => if_neg ?_
  rintro ⟨h1, h2⟩
  exact hid s[i] (List.getElem_mem _) _ (List.getElem_mem _) (by simpa [Channel.isIncident] using h1) h2

namespace Example

theorem uncoupled_elastic (c : Fin uncoupled.channels.length) (hc : uncoupled.channels[c].isIncident) :
    Spec.Uncoupled uncoupled 2 c := by
  intro r hr
  obtain rfl := List.mem_singleton.mp hr
  right
  obtain ⟨c, hlt⟩ := c
  match c with
  | 0 => rfl
  | 1 => exact absurd hc (show ¬ inelastic.isIncident = true by decide)
  | 2 => exact absurd hc (show ¬ fission.isIncident = true by decide)
  | c + 3 => simp [uncoupled, channels] at hlt

/-- Two groups without neutron widths can be evaluated, and have no fission; nor is there a T-matrix element from
elastic scattering to fission. -/
example (option : BoundaryOption) (lib : CoulombLibrary) (cache : MatrixCache uncoupled.channels.length) :
    (∃ m s', CompoundSystem.evaluate option constants lib 2 [⟨uncoupled, cache⟩, ⟨uncoupled, cache⟩]
      (fun _ => none) = .ok (m, s') ∧ (m fission.reaction).getD 0 = 0) ∧
    ∃ m c, uncoupled.evaluateTMatrix option constants lib 2 cache (fun _ => none) = .ok (m, c) ∧
      m (tMatrixKey elastic.id fission.id) = some 0 := by
  have hev := fun start => C19_neutral_channels (option := option) (lib := lib) (K := constants) (E := 2)
    uncoupled_built neutralAt (fun r hr => by
      obtain rfl := List.mem_singleton.mp hr
      rfl) (fun r hr => by
      obtain rfl := List.mem_singleton.mp hr
      norm_num) cache start (fun _ => none)
  obtain ⟨⟨m₁, c₁⟩, h1⟩ := (hev fun _ => none).1
  obtain ⟨⟨m₂, c₂⟩, h2⟩ := (hev m₁).1
  obtain ⟨⟨t, c₃⟩, h3⟩ := (hev fun _ => none).2
  have hs : CompoundSystem.evaluate option constants lib 2 [⟨uncoupled, cache⟩, ⟨uncoupled, cache⟩]
      (fun _ => none) = .ok (m₂, [⟨uncoupled, c₁⟩, ⟨uncoupled, c₂⟩]) :=
    evaluate_cons_ok.mpr ⟨_, _, _, h1, evaluate_cons_ok.mpr ⟨_, _, _, h2, rfl, rfl⟩, rfl⟩
  refine ⟨⟨_, _, hs, ?_⟩, _, _, h3, ?_⟩
  · refine C104_system_other (id := fission.reaction) (by simpa using uncoupled_built)
      (by simpa using uncoupled_elastic) hs ?_
    intro st hst c hc hinc
    have : c ∈ channels := by
      simp only [List.mem_cons, List.not_mem_nil, or_false, or_self] at hst
      subst hst
      exact hc
    simp only [channels, List.mem_cons, List.not_mem_nil, or_false] at this
    rcases this with rfl | rfl | rfl
    · decide
    · exact absurd hinc (by decide)
    · exact absurd hinc (by decide)
  · exact (C104_t_matrix uncoupled_built noArrow h3 (c := ⟨0, by decide⟩)
      (uncoupled_elastic _ (show elastic.isIncident = true by decide)) ⟨2, by decide⟩).1

end Example

end Verif
