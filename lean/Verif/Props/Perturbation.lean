import Verif.Lemmas.Perturbation
import Verif.Props.SpinGroup
import Verif.Props.SpinGroupConstruction
import Verif.Lemmas.System

/-!
# Property C80: cross sections depend continuously on the resonance parameters
-/

namespace Verif

open Complex Matrix

variable {option : BoundaryOption} {K : Constants} {lib : CoulombLibrary} {E : ℝ}

theorem Spec.Close.mono {ε ε' : ℝ} (h : ε ≤ ε') {x y : Option ℝ} (hc : Spec.Close ε x y) :
    Spec.Close ε' x y := by
  cases x <;> cases y <;> simp_all [Spec.Close]
  linarith

/-- A relation between lists of resonances of spin groups with the same channels, with a tolerance: whatever can
be evaluated with the one can be evaluated with the other, and gives nearly the same. -/
structure Controls (option : BoundaryOption) (K : Constants) (lib : CoulombLibrary) (E : ℝ)
    (Rel : ℝ → List Channel → List Resonance → List Resonance → Prop) : Prop where
  mono : ∀ {δ δ' : ℝ}, δ ≤ δ' → ∀ {channels a b}, Rel δ channels a b → Rel δ' channels a b
  near : ∀ {channels : List Channel} {rs : List Resonance} {P S w phi : Fin channels.length → ℝ},
    Spec.Evaluable option K lib channels rs E P S w phi → ∀ (ids : List ReactionID) {ε : ℝ}, 0 < ε →
    ∃ δ > 0, ∀ rs', Rel δ channels rs rs' → Spec.Evaluable option K lib channels rs' E P S w phi ∧
      ∀ id ∈ ids, |Spec.contribution option K channels rs' E P S w phi id
        - Spec.contribution option K channels rs E P S w phi id| < ε

theorem controls_near : Controls option K lib E fun δ _ => Spec.NearResonances δ where
  mono hle _ _ _ hab := hab.imp fun _ _ hr => ⟨hr.energy.trans_le hle, hr.eliminated.trans_le hle,
    hr.widths.imp fun _ _ hx => hx.trans_le hle⟩
  near hev ids _ hε := contribution_near hev ids hε

variable {Rel : ℝ → List Channel → List Resonance → List Resonance → Prop}

/-- Closeness of the maps before and after the evaluation of two spin groups with nearly the same
resonances. -/
theorem group_near (hRel : Controls option K lib E Rel) {g : SpinGroup} (hg : g.Built) {cache cache' : MatrixCache g.channels.length}
    {start m : CrossSectionMap} (h : g.evaluate option K lib E cache start = .ok (m, cache'))
    {ε : ℝ} (hε : 0 < ε) :
    ∃ δ > 0, ∀ g' : SpinGroup, g'.Built → g'.channels = g.channels →
      Rel δ g.channels g.table.resonances g'.table.resonances →
      ∀ cache start', ∃ m' cache', g'.evaluate option K lib E cache start' = .ok (m', cache') ∧
        ∀ η > 0, (∀ id, Spec.Close η (start' id) (start id)) → ∀ id, Spec.Close (η + ε) (m' id) (m id) := by
  obtain ⟨P, S, w, phi, hev, hres⟩ := evaluate_ok hg h
  obtain ⟨δ, hδ, hnear⟩ := hRel.near hev g.reactions hε
  refine ⟨δ, hδ, ?_⟩
  rintro ⟨channels', reactions', incident', table'⟩ hg' hch hrs cache₁ start'
  dsimp only at hch hrs
  subst hch
  obtain ⟨hev', hclose⟩ := hnear _ hrs
  obtain ⟨⟨m', c'⟩, e'⟩ := evaluate_ok_of hg' hev' cache₁ start'
  obtain ⟨P₂, S₂, w₂, phi₂, hev₂, hres'⟩ := evaluate_ok hg' e'
  refine ⟨m', c', e', fun η hη hst id => ?_⟩
  have hreac : reactions' = g.reactions := by
    obtain ⟨-, first, rest, h2, h3, -⟩ := hg.incident
    obtain ⟨-, first', rest', h2', h3', -⟩ := hg'.incident
    rw [h2] at h2'
    obtain ⟨rfl, -⟩ := List.cons.inj h2'
    rw [h3]
    exact h3'
  subst hreac
  have hs := hst id
  rw [hres id, hres' id, ← Evaluable_contribution hev' hev₂ id]
  by_cases hid : id ∈ g.reactions
  · rw [if_pos hid, if_pos hid]
    have h1 := hclose id hid
    have h2 : |(start' id).getD 0 - (start id).getD 0| < η := by
      revert hs
      cases start' id <;> cases start id <;> simp [Spec.Close, hη]
    simp only [Spec.Close]
    rw [abs_lt] at h1 h2 ⊢
    constructor <;> linarith
  · rw [if_neg hid, if_neg hid]
    exact Spec.Close.mono (by linarith) hs

/-- C80 for a spin group: if it can be evaluated at an energy then, for every tolerance, all spin groups with
the same channels and sufficiently close resonance energies and widths can be evaluated there, and report the
same reactions with cross sections within the tolerance. -/
theorem C80_spin_group {g : SpinGroup} (hg : g.Built) {cache cache' : MatrixCache g.channels.length}
    {start m : CrossSectionMap} (h : g.evaluate option K lib E cache start = .ok (m, cache'))
    {ε : ℝ} (hε : 0 < ε) :
    ∃ δ > 0, ∀ g' : SpinGroup, g'.Built → g'.channels = g.channels →
      Spec.NearResonances δ g.table.resonances g'.table.resonances →
      ∀ cache, ∃ m' cache', g'.evaluate option K lib E cache start = .ok (m', cache') ∧
        ∀ id, Spec.Close ε (m' id) (m id) := by
  obtain ⟨δ, hδ, hnear⟩ := group_near controls_near hg h (half_pos hε)
  refine ⟨δ, hδ, fun g' hg' hch hrs cache => ?_⟩
  obtain ⟨m', c', e, hcl⟩ := hnear g' hg' hch hrs cache start
  refine ⟨m', c', e, fun id => ?_⟩
  rw [← add_halves ε]
  refine hcl _ (half_pos hε) (fun id => ?_) id
  cases start id <;> simp [Spec.Close, hε]

/-- The spin groups with nearby resonances exist: the constructor accepts the same channels with them. -/
theorem C80_accepted {g : SpinGroup} (hg : g.Built) {δ : ℝ} {rs : List Resonance}
    (hrs : Spec.NearResonances δ g.table.resonances rs) :
    ∃ g', makeSpinGroup g.channels ⟨g.table.channels, rs⟩ = .ok g' ∧ g'.Built ∧
      g'.channels = g.channels ∧ g'.table.resonances = rs := by
  have hcons := (C24_accepted _ _).mp ⟨g, hg⟩
  obtain ⟨g', hg'⟩ := (C24_accepted g.channels ⟨g.table.channels, rs⟩).mpr
    ⟨hcons.nonempty, hcons.sameIncident, hcons.uniqueIDs, hcons.sameJpi, hcons.hasIncident, hcons.sameTable⟩
  obtain ⟨h1, h2, h3⟩ := SpinGroup.Built.of_make hg'
  exact ⟨g', hg', h1, h2, by rw [h3]⟩

theorem system_near (hRel : Controls option K lib E Rel) {s s' : CompoundSystem} (hg : ∀ st ∈ s, st.group.Built) {start m : CrossSectionMap}
    (h : CompoundSystem.evaluate option K lib E s start = .ok (m, s')) {ε : ℝ} (hε : 0 < ε) :
    ∃ δ > 0, ∀ s₁ : CompoundSystem, List.Forall₂ (fun st st₁ => st₁.group.Built ∧
        st₁.group.channels = st.group.channels ∧
        Rel δ st.group.channels st.group.table.resonances st₁.group.table.resonances) s s₁ →
      ∀ start', ∃ m' s₂, CompoundSystem.evaluate option K lib E s₁ start' = .ok (m', s₂) ∧
        ∀ η > 0, (∀ id, Spec.Close η (start' id) (start id)) → ∀ id, Spec.Close (η + ε) (m' id) (m id) := by
  induction s generalizing start s' ε with
  | nil =>
    rw [evaluate_nil] at h
    cases h
    refine ⟨1, one_pos, fun s₁ hs₁ start' => ?_⟩
    cases hs₁
    exact ⟨start', [], rfl, fun η _ hst id => Spec.Close.mono (by linarith) (hst id)⟩
  | cons st rest ih =>
    obtain ⟨r, cache, rest', h1, h2, rfl⟩ := evaluate_cons_ok.mp h
    obtain ⟨δ₁, hδ₁, k1⟩ := group_near hRel (hg st List.mem_cons_self) h1 (half_pos hε)
    obtain ⟨δ₂, hδ₂, k2⟩ := ih (fun x hx => hg x (List.mem_cons_of_mem _ hx)) h2 (half_pos hε)
    refine ⟨min δ₁ δ₂, lt_min hδ₁ hδ₂, fun s₁ hs₁ start' => ?_⟩
    cases hs₁ with
    | cons hst hrest =>
      obtain ⟨b1, b2, b3⟩ := hst
      obtain ⟨m₁, c₁, e1, cl1⟩ := k1 _ b1 b2 (hRel.mono (min_le_left _ _) b3) _ start'
      obtain ⟨m₂, s₂, e2, cl2⟩ := k2 _ (hrest.imp fun _ _ hx => ⟨hx.1, hx.2.1, hRel.mono (min_le_right _ _) hx.2.2⟩) m₁
      refine ⟨m₂, _, evaluate_cons_ok.mpr ⟨_, _, _, e1, e2, rfl⟩, fun η hη hst id => ?_⟩
      have := cl2 (η + ε / 2) (by linarith) (cl1 η hη hst) id
      rwa [add_assoc, add_halves] at this

/-- C80 for a compound system. -/
theorem C80_system {s s' : CompoundSystem} (hg : ∀ st ∈ s, st.group.Built) {start m : CrossSectionMap}
    (h : CompoundSystem.evaluate option K lib E s start = .ok (m, s')) {ε : ℝ} (hε : 0 < ε) :
    ∃ δ > 0, ∀ s₁ : CompoundSystem, List.Forall₂ (fun st st₁ => st₁.group.Built ∧
        st₁.group.channels = st.group.channels ∧
        Spec.NearResonances δ st.group.table.resonances st₁.group.table.resonances) s s₁ →
      ∃ m' s₂, CompoundSystem.evaluate option K lib E s₁ start = .ok (m', s₂) ∧
        ∀ id, Spec.Close ε (m' id) (m id) := by
  obtain ⟨δ, hδ, hnear⟩ := system_near controls_near hg h (half_pos hε)
  refine ⟨δ, hδ, fun s₁ hs₁ => ?_⟩
  obtain ⟨m', c', e, hcl⟩ := hnear s₁ hs₁ start
  refine ⟨m', c', e, fun id => ?_⟩
  rw [← add_halves ε]
  refine hcl _ (half_pos hε) (fun id => ?_) id
  cases start id <;> simp [Spec.Close, hε]

/-- The resonances of the example, with one energy changed by a little. -/
example {δ : ℝ} (hδ : 0 < δ) : Spec.NearResonances δ Example.resonances
    (Example.resonances.map fun r => { r with energy := r.energy + δ / 2 }) := by
  rw [Spec.NearResonances, List.forall₂_map_right_iff, List.forall₂_same]
  intro r _
  refine ⟨?_, by simpa using hδ, List.forall₂_same.mpr fun x _ => by simpa using hδ⟩
  rw [add_sub_cancel_left, abs_of_pos (by linarith)]
  linarith

/-- The spin group of the example can be evaluated. -/
example (option : BoundaryOption) (lib : CoulombLibrary) (cache : MatrixCache Example.group.channels.length) :
    ∃ m cache', Example.group.evaluate option Example.constants lib 2 cache (fun _ => none)
      = .ok (m, cache') := by
  obtain ⟨⟨m, cache'⟩, h⟩ := (Example.evaluates option lib cache (fun _ => none) (fun _ => none)).1
  exact ⟨m, cache', h⟩

end Verif
