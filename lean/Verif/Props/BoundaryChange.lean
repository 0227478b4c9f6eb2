import Verif.Lemmas.BoundaryChange
import Verif.Props.SpinGroup
import Verif.Props.SpinGroupConstruction
import Verif.Props.OneLevel
import Verif.Props.Boundary
import Verif.Lemmas.System
import Mathlib.Analysis.Matrix.Spectrum

/-!
# Property C87: the choice of boundary conditions does not matter
-/

namespace Verif

open Complex Matrix

variable {K : Constants} {lib : CoulombLibrary} {E : ℝ} {n : ℕ}

section

variable {channels channels' : List Channel} {rs rs' : List Resonance}

theorem same_find (h : Spec.SameButBoundary channels channels') :
    (channels'.find? Channel.isIncident).map (fun c => (c.waveNumber K E, c.spinFactor))
      = (channels.find? Channel.isIncident).map (fun c => (c.waveNumber K E, c.spinFactor)) := by
  induction h with
  | nil => rfl
  | @cons c c' _ _ hc _ ih =>
    rw [List.find?_cons, List.find?_cons]
    have h1 : c'.isIncident = c.isIncident := by rw [hc]; rfl
    rw [h1]
    cases c.isIncident
    · exact ih
    · simp only [Option.map_some, Option.some.injEq]
      rw [hc]
      rfl

theorem same_factor (h : Spec.SameButBoundary channels channels') :
    Spec.incidentFactor K channels' E = Spec.incidentFactor K channels E := by
  have h1 := same_find (K := K) (E := E) h
  unfold Spec.incidentFactor
  revert h1
  cases channels'.find? Channel.isIncident <;> cases channels.find? Channel.isIncident <;> simp
  intro h1 h2
  rw [h1, h2]

theorem same_capture (h : Spec.SameButBoundary channels channels') :
    Spec.captureID channels' = Spec.captureID channels := by
  cases h with
  | nil => rfl
  | cons hc _ =>
    simp only [Spec.captureID, List.head?_cons, Option.map_some]
    rw [hc]

theorem contribution_change {Q : Matrix (Fin n) (Fin n) ℝ}
    (h : Spec.BoundaryChange Q channels channels' rs rs')
    (hclosed : ∀ c : Fin channels.length, channels[c].belowThreshold E →
      Spec.boundaryShift channels channels' c = 0)
    (hp : ∀ r ∈ rs', ¬ (r.energy = E ∧ r.eliminated = 0)) {P S w phi : Fin channels.length → ℝ}
    (hev : Spec.Evaluable .constant K lib channels rs E P S w phi) :
    ∃ P' S' w' phi', Spec.Evaluable .constant K lib channels' rs' E P' S' w' phi' ∧
      ∀ id, Spec.contribution .constant K channels' rs' E P' S' w' phi' id
        = Spec.contribution .constant K channels rs E P S w phi id := by
  have hs := h.sameChannels
  obtain ⟨hdet, hT⟩ := tMatrix_change h hclosed hev.noPole hp hev.invertible
  set σ := finCongr (same_length hs).symm with hσ
  have hsame : ∀ i : Fin channels.length, channels'[σ i]
      = { channels[i] with boundary := channels'[σ i].boundary } := same_getElem hs
  have hsame' : ∀ i : Fin channels'.length, channels'[i]
      = { channels[σ.symm i] with boundary := channels'[i].boundary } := by
    intro i
    obtain ⟨j, rfl⟩ := σ.surjective i
    exact hsame j
  refine ⟨P ∘ σ.symm, S ∘ σ.symm, w ∘ σ.symm, phi ∘ σ.symm, ⟨?_, ?_, ?_, ?_, fun i => hev.nonneg _, ?_, hp,
    hdet, ?_⟩, fun id => ?_⟩
  · intro i; rw [hsame' i]; exact hev.penetrability _
  · intro _ i; rw [hsame' i]; exact hev.shiftFactor rfl _
  · intro i; rw [hsame' i]; exact hev.coulomb _
  · intro i; rw [hsame' i]; exact hev.phase _
  · intro r hr
    rw [h.widths' r hr, same_length hs]
  · obtain ⟨c, h1, h2⟩ := hev.waveNumber
    have h3 := same_find (K := K) (E := E) hs
    rw [h1] at h3
    obtain ⟨c', h4, h5⟩ := Option.map_eq_some_iff.mp h3
    exact ⟨c', h4, by rw [(Prod.mk.inj h5).1]; exact h2⟩
  · have hU : ∀ i j, Spec.collision (Spec.tMatrix .constant channels' rs' E (P ∘ σ.symm) (S ∘ σ.symm))
          (w ∘ σ.symm) (phi ∘ σ.symm) (σ i) (σ j)
        = Spec.collision (Spec.tMatrix .constant channels rs E P S) w phi i j := by
      intro i j
      simp only [Spec.collision, hT, Function.comp_apply, Equiv.symm_apply_apply, EmbeddingLike.apply_eq_iff_eq]
    have hinc : ∀ i, channels'[σ i].isIncident = channels[i].isIncident := by
      intro i; rw [hsame i]; rfl
    have hreac : ∀ i, channels'[σ i].reaction = channels[i].reaction := by
      intro i; rw [hsame i]
    unfold Spec.contribution
    simp only
    rw [← Equiv.sum_comp σ]
    refine Finset.sum_congr rfl fun c _ => ?_
    have hinner : (∑ c', if channels'[c'].reaction = id then
          Spec.incidentFactor K channels' E * Spec.partialCrossSection (Spec.collision
            (Spec.tMatrix .constant channels' rs' E (P ∘ σ.symm) (S ∘ σ.symm)) (w ∘ σ.symm)
            (phi ∘ σ.symm)) (w ∘ σ.symm) (σ c) c' else 0)
        = ∑ c' : Fin channels.length, if channels[c'].reaction = id then
          Spec.incidentFactor K channels E * Spec.partialCrossSection (Spec.collision
            (Spec.tMatrix .constant channels rs E P S) w phi) w c c' else 0 := by
      rw [← Equiv.sum_comp σ]
      refine Finset.sum_congr rfl fun c' _ => ?_
      rw [hreac c', same_factor hs]
      simp only [Spec.partialCrossSection, hU, Function.comp_apply, Equiv.symm_apply_apply,
        EmbeddingLike.apply_eq_iff_eq]
    have hc : Spec.captureCrossSection (Spec.collision
            (Spec.tMatrix .constant channels' rs' E (P ∘ σ.symm) (S ∘ σ.symm)) (w ∘ σ.symm)
            (phi ∘ σ.symm)) (σ c)
        = Spec.captureCrossSection (Spec.collision
            (Spec.tMatrix .constant channels rs E P S) w phi) c := by
      unfold Spec.captureCrossSection
      rw [← Equiv.sum_comp σ]
      simp only [hU]
    rw [hinner, hc, same_capture hs, hinc c, same_factor hs]

end

/-- C87 for a spin group: boundary conditions may be changed if the resonance parameters are transformed
accordingly. The cross sections are the same at every energy that is not a pole of the new parameters and at which
all channels with another boundary condition are open. -/
theorem C87_spin_group {g g' : SpinGroup} (hg : g.Built) (hg' : g'.Built) {Q : Matrix (Fin n) (Fin n) ℝ}
    (h : Spec.BoundaryChange Q g.channels g'.channels g.table.resonances g'.table.resonances)
    (hclosed : ∀ c : Fin g.channels.length, g.channels[c].belowThreshold E →
      Spec.boundaryShift g.channels g'.channels c = 0)
    (hp : ∀ r ∈ g'.table.resonances, ¬ (r.energy = E ∧ r.eliminated = 0))
    {cache c : MatrixCache g.channels.length} {start m : CrossSectionMap}
    (hok : g.evaluate .constant K lib E cache start = .ok (m, c)) (cache' : MatrixCache g'.channels.length) :
    ∃ c', g'.evaluate .constant K lib E cache' start = .ok (m, c') := by
  obtain ⟨P, S, w, phi, hev, hres⟩ := evaluate_ok hg hok
  obtain ⟨P', S', w', phi', hev', hcon⟩ := contribution_change h hclosed hp hev
  obtain ⟨⟨m', c'⟩, e⟩ := evaluate_ok_of hg' hev' cache' start
  obtain ⟨P₂, S₂, w₂, phi₂, hev₂, hres'⟩ := evaluate_ok hg' e
  refine ⟨c', ?_⟩
  rw [e]
  congr 2
  have hreac : g'.reactions = g.reactions := by
    obtain ⟨-, first, rest, h2, h3, -⟩ := hg.incident
    obtain ⟨-, first', rest', h2', h3', -⟩ := hg'.incident
    have hs := h.sameChannels
    rw [h3, h3']
    have h4 : g'.channels.map Channel.reaction = g.channels.map Channel.reaction := by
      clear h3 h3' h2 h2'
      generalize g.channels = a at hs
      generalize g'.channels = b at hs
      induction hs with
      | nil => rfl
      | cons hc _ ih => rw [List.map_cons, List.map_cons, ih, hc]
    have h5 : first'.incident = first.incident := by
      rw [h2, h2'] at hs
      cases hs with
      | cons hc _ => rw [hc]
    rw [h4, h5]
  funext id
  rw [hres, hres', ← Evaluable_contribution hev' hev₂ id, hcon, hreac]

/-- C87 for a compound system. -/
theorem C87_system {s s' : CompoundSystem} (hg : ∀ st ∈ s, st.group.Built) (hg' : ∀ st ∈ s', st.group.Built)
    (h : List.Forall₂ (fun st st' : GroupState => ∃ n, ∃ Q : Matrix (Fin n) (Fin n) ℝ,
      Spec.BoundaryChange Q st.group.channels st'.group.channels st.group.table.resonances
        st'.group.table.resonances ∧
      (∀ c : Fin st.group.channels.length, st.group.channels[c].belowThreshold E →
        Spec.boundaryShift st.group.channels st'.group.channels c = 0) ∧
      ∀ r ∈ st'.group.table.resonances, ¬ (r.energy = E ∧ r.eliminated = 0)) s s')
    {start m : CrossSectionMap} {s₂ : CompoundSystem}
    (hok : CompoundSystem.evaluate .constant K lib E s start = .ok (m, s₂)) :
    ∃ s₂', CompoundSystem.evaluate .constant K lib E s' start = .ok (m, s₂') := by
  induction h generalizing start s₂ with
  | nil =>
    rw [evaluate_nil] at hok
    cases hok
    exact ⟨[], rfl⟩
  | @cons st st' s s' h1 _ ih =>
    obtain ⟨n, Q, h1, h2, h3⟩ := h1
    obtain ⟨r, c, rest, h4, h5, rfl⟩ := evaluate_cons_ok.mp hok
    obtain ⟨c', h6⟩ := C87_spin_group (hg st List.mem_cons_self) (hg' st' List.mem_cons_self) h1 h2 h3 h4 st'.cache
    obtain ⟨s₂', h7⟩ := ih (fun x hx => hg x (List.mem_cons_of_mem _ hx))
      (fun x hx => hg' x (List.mem_cons_of_mem _ hx)) h5
    exact ⟨_, evaluate_cons_ok.mpr ⟨_, _, _, h6, h7, rfl⟩⟩

/-- C87: the transformed parameters exist, for all resonances with one and the same width of the eliminated
capture channel and for all boundary conditions. -/
theorem C87_exists {channels channels' : List Channel} (hs : Spec.SameButBoundary channels channels')
    {rs : List Resonance} (G : ℝ) (hG : ∀ r ∈ rs, r.eliminated = G) :
    ∃ Q : Matrix (Fin rs.length) (Fin rs.length) ℝ, ∃ rs', Spec.BoundaryChange Q channels channels' rs rs' := by
  classical
  set A : Matrix (Fin rs.length) (Fin rs.length) ℝ := Matrix.diagonal (Spec.energies rs.length rs)
    - Spec.widthMatrix rs.length channels.length rs * Matrix.diagonal (Spec.boundaryShift channels channels')
      * (Spec.widthMatrix rs.length channels.length rs).transpose with hAdef
  have hA : A.IsHermitian := by
    rw [Matrix.IsHermitian, Matrix.conjTranspose_eq_transpose_of_trivial, hAdef, Matrix.transpose_sub,
      Matrix.transpose_mul, Matrix.transpose_mul, Matrix.diagonal_transpose, Matrix.diagonal_transpose,
      Matrix.transpose_transpose, Matrix.mul_assoc]
  set U : Matrix (Fin rs.length) (Fin rs.length) ℝ := hA.eigenvectorUnitary.1 with hU
  have hUU : Uᵀ * U = 1 := by
    have := (Matrix.mem_unitaryGroup_iff'.mp hA.eigenvectorUnitary.2)
    rwa [Matrix.star_eq_conjTranspose, Matrix.conjTranspose_eq_transpose_of_trivial] at this
  have hspec : A = U * diagonal hA.eigenvalues * Uᵀ := by
    have := hA.spectral_theorem
    rw [Unitary.conjStarAlgAut_apply, Matrix.star_eq_conjTranspose,
      Matrix.conjTranspose_eq_transpose_of_trivial] at this
    exact this
  have hU2 : U * Uᵀ = 1 := mul_eq_one_comm.mp hUU
  let rs' : List Resonance := List.ofFn fun i =>
    ⟨hA.eigenvalues i, List.ofFn fun c => (Uᵀ * Spec.widthMatrix rs.length channels.length rs) i c, G⟩
  have hget : ∀ i : Fin rs.length, rs'.getD i ⟨0, [], 0⟩ = ⟨hA.eigenvalues i,
      List.ofFn fun c => (Uᵀ * Spec.widthMatrix rs.length channels.length rs) i c, G⟩ := by
    intro i
    rw [getD_getElem (by simp [rs'])]
    simp [rs']
  refine ⟨Uᵀ, rs', hs, rfl, by simp [rs'], ?_, ?_, ?_, ?_, ?_⟩
  · intro r hr
    obtain ⟨i, rfl⟩ := (List.mem_ofFn' _ _).mp hr
    simp
  · rw [Matrix.transpose_transpose, hUU]
  · ext i c
    simp only [Spec.widthMatrix, Matrix.of_apply, hget, Resonance.width]
    rw [getD_getElem (by simp)]
    simp
  · rw [← hAdef, Matrix.transpose_transpose, hspec]
    have : Spec.energies rs.length rs' = hA.eigenvalues := by
      funext i
      simp only [Spec.energies, hget]
    rw [this]
    calc diagonal hA.eigenvalues = (Uᵀ * U) * diagonal hA.eigenvalues * (Uᵀ * U) := by
          rw [hUU, Matrix.one_mul, Matrix.mul_one]
      _ = _ := by simp only [Matrix.mul_assoc]
  · intro r hr r' hr'
    obtain ⟨i, rfl⟩ := (List.mem_ofFn' _ _).mp hr'
    exact (hG r hr).symm

/-- C87: the constructor of a spin group accepts the channels with other boundary conditions, with any
resonances. -/
theorem C87_accepted {g : SpinGroup} (hg : g.Built) {channels' : List Channel}
    (hs : Spec.SameButBoundary g.channels channels') (rs : List Resonance) :
    ∃ g', makeSpinGroup channels' ⟨g.table.channels, rs⟩ = .ok g' ∧ g'.Built ∧
      g'.channels = channels' ∧ g'.table.resonances = rs := by
  have hcons := (C24_accepted _ _).mp ⟨g, hg⟩
  have hmem : ∀ c' ∈ channels', ∃ c ∈ g.channels, c' = { c with boundary := c'.boundary } := by
    intro c' hc'
    obtain ⟨i, hi, rfl⟩ := List.getElem_of_mem hc'
    have hi' : i < g.channels.length := by rwa [← same_length hs]
    exact ⟨g.channels[i], List.getElem_mem _, (List.forall₂_iff_get.mp hs).2 i hi' hi⟩
  have hids : channels'.map Channel.id = g.channels.map Channel.id := by
    clear hcons hmem
    generalize g.channels = a at hs
    induction hs with
    | nil => rfl
    | cons hc _ ih => rw [List.map_cons, List.map_cons, ih, hc]
  have hcons' : Spec.ConsistentGroup channels' ⟨g.table.channels, rs⟩ := by
    refine ⟨?_, ?_, ?_, ?_, ?_, ?_⟩
    · intro h0
      rw [h0, List.map_nil, eq_comm, List.map_eq_nil_iff] at hids
      exact hcons.nonempty hids
    · intro c hc d hd
      obtain ⟨c₁, hc₁, e1⟩ := hmem c hc
      obtain ⟨d₁, hd₁, e2⟩ := hmem d hd
      rw [e1, e2]
      exact hcons.sameIncident c₁ hc₁ d₁ hd₁
    · rw [hids]
      exact hcons.uniqueIDs
    · intro c hc d hd
      obtain ⟨c₁, hc₁, e1⟩ := hmem c hc
      obtain ⟨d₁, hd₁, e2⟩ := hmem d hd
      rw [e1, e2]
      exact hcons.sameJpi c₁ hc₁ d₁ hd₁
    · obtain ⟨c, hc, e⟩ := hcons.hasIncident
      obtain ⟨i, hi, rfl⟩ := List.getElem_of_mem hc
      have hi' : i < channels'.length := by rwa [same_length hs]
      refine ⟨channels'[i], List.getElem_mem _, ?_⟩
      have h1 : channels'[i] = { g.channels[i] with boundary := channels'[i].boundary } :=
        (List.forall₂_iff_get.mp hs).2 i hi hi'
      rw [h1]
      exact e
    · rw [hids]
      exact hcons.sameTable
  obtain ⟨g', hg'⟩ := (C24_accepted channels' ⟨g.table.channels, rs⟩).mpr hcons'
  obtain ⟨h1, h2, h3⟩ := SpinGroup.Built.of_make hg'
  exact ⟨g', hg', h1, h2, by rw [h3]⟩

/-- C87 for a single resonance: its energy moves by the sum of the changes of the boundary conditions, weighted
with the squared amplitudes. -/
theorem C87_one_resonance {channels channels' : List Channel} (hs : Spec.SameButBoundary channels channels')
    (r : Resonance) (hw : r.widths.length = channels.length) :
    Spec.BoundaryChange (1 : Matrix (Fin 1) (Fin 1) ℝ) channels channels' [r]
      [{ r with energy := r.energy
        - ∑ c : Fin channels.length, r.width c ^ 2 * Spec.boundaryShift channels channels' c }] := by
  refine ⟨hs, rfl, rfl, by simpa using hw, by simp, ?_, ?_, by simp⟩
  · rw [Matrix.one_mul]
    ext i c
    obtain rfl : i = 0 := Subsingleton.elim _ _
    rfl
  · rw [Matrix.one_mul, Matrix.transpose_one, Matrix.mul_one]
    ext i j
    obtain rfl : i = 0 := Subsingleton.elim _ _
    obtain rfl : j = 0 := Subsingleton.elim _ _
    rw [Matrix.sub_apply, Matrix.diagonal_apply_eq, Matrix.diagonal_apply_eq, Matrix.mul_apply]
    simp only [Spec.energies, Matrix.mul_diagonal, Matrix.transpose_apply, Spec.widthMatrix, Matrix.of_apply]
    change r.energy - _ = r.energy - _
    congr 1
    refine Finset.sum_congr rfl fun c _ => ?_
    change r.width c ^ 2 * _ = r.width c * _ * r.width c
    ring

namespace Example

/-- Elastic and inelastic scattering, the latter with a given boundary condition, and one resonance. -/
noncomputable def withBoundary (b e : ℝ) : SpinGroup :=
  ⟨[elastic, { inelastic with boundary := b }], [elastic.reaction, inelastic.reaction] ++
    [.transition pair.id "capture".toList], determineIncidentChannels [elastic, { inelastic with boundary := b }],
    ⟨[elastic.id, inelastic.id], [⟨e, [1 / 2, 2], 1 / 10⟩]⟩⟩

theorem withBoundary_built (b e : ℝ) : (withBoundary b e).Built := by
  have hcons : Spec.ConsistentGroup [elastic, { inelastic with boundary := b }]
      ⟨[elastic.id, inelastic.id], [⟨e, [1 / 2, 2], 1 / 10⟩]⟩ := by
    refine ⟨by simp, ?_, ?_, ?_, ⟨elastic, by simp, rfl⟩, rfl⟩
    · intro c hc d hd
      simp only [List.mem_cons, List.not_mem_nil, or_false] at hc hd
      rcases hc with rfl | rfl <;> rcases hd with rfl | rfl <;> rfl
    · have p1 : Physical ⟨0, 1 / 2, 1 / 2, 1⟩ := ⟨⟨1, by norm_num⟩, ⟨1, by norm_num⟩⟩
      have n1 : elastic.id ≠ inelastic.id := fun h =>
        absurd ((C07_channelID_injective _ _ _ _ p1 p1).mp h).1 (by decide)
      simp [n1]
    · intro c hc d hd
      simp only [List.mem_cons, List.not_mem_nil, or_false] at hc hd
      rcases hc with rfl | rfl <;> rcases hd with rfl | rfl <;> exact ⟨rfl, rfl⟩
  obtain ⟨g, hg⟩ := (C24_accepted _ _).mpr hcons
  obtain ⟨h1, h2, -⟩ := C24_contents hg
  obtain ⟨h3, first, rest, h4, h5, -⟩ := (SpinGroup.Built.of_make hg).1.incident
  have : g = withBoundary b e := by
    obtain ⟨c, r, i, t⟩ := g
    simp only at h1 h2 h3 h4 h5
    subst h1 h2 h3 h5
    obtain ⟨rfl, -⟩ := List.cons.inj h4
    rfl
  rw [← this]
  exact (SpinGroup.Built.of_make hg).1

theorem withBoundary_capture (b e : ℝ) (lib : CoulombLibrary)
    (cache : MatrixCache (withBoundary b e).channels.length) {P : ℝ}
    (hP : elastic.penetrability constants lib 2 = .ok P) :
    ∃ m c, (withBoundary b e).evaluate .constant constants lib 2 cache (fun _ => none) = .ok (m, c) ∧
      m (.transition pair.id "capture".toList) = some (Real.pi / elastic.waveNumber constants 2 ^ 2
        * elastic.spinFactor * (P / 2 * (1 / 50) / ((2 - e) ^ 2 + (1 / 50 + P / 2) ^ 2 / 4))) := by
  have hn : ∀ c ∈ (withBoundary b e).channels, NeutralAt 2 c := by
    intro c hc
    simp only [withBoundary, List.mem_cons, List.not_mem_nil, or_false] at hc
    rcases hc with rfl | rfl
    · exact neutralAt elastic (by simp [group, channels])
    · have := neutralAt inelastic (by simp [group, channels])
      exact ⟨this.notCharged, this.lmax, this.mass, this.notThreshold, this.radiusP, this.radiusS, this.radiusPhi⟩
  obtain ⟨⟨m, c⟩, h⟩ := (C19_neutral_channels (option := .constant) (K := constants) (lib := lib)
    (withBoundary_built b e) hn (by simp [withBoundary]) (by simp [withBoundary]) cache (fun _ => none)
    (fun _ => none)).1
  obtain ⟨P', S, w, phi, hev, hm⟩ := C73_single_level (withBoundary_built b e) rfl h
  refine ⟨m, c, h, ?_⟩
  have hcap : Spec.captureID (withBoundary b e).channels = some (.transition pair.id "capture".toList) := rfl
  rw [hm, if_pos (Or.inr hcap)]
  have hP' : P' (0 : Fin 2) = P := by
    have := hev.penetrability (0 : Fin 2)
    change elastic.penetrability constants lib 2 = _ at this
    rw [hP] at this
    exact (Except.ok.inj this).symm
  have hS : S (0 : Fin 2) = 0 := by
    have := hev.shiftFactor rfl (0 : Fin 2)
    change elastic.shiftFactor constants lib 2 = _ at this
    rw [shiftFactor_zero (Or.inr (Or.inr ⟨rfl, rfl⟩)) ⟨1, rfl⟩] at this
    exact (Except.ok.inj this).symm
  have hinc0 : elastic.isIncident = true := by decide
  have hinc1 : inelastic.isIncident = false := by decide
  have hr0 : elastic.reaction ≠ .transition pair.id "capture".toList := by decide
  have hr1 : inelastic.reaction ≠ .transition pair.id "capture".toList := by decide
  have ho : ¬ elastic.belowThreshold 2 := by norm_num [Channel.belowThreshold, elastic, makeChannel, pair]
  have hc : inelastic.belowThreshold 2 := closed
  have hamp0 : Spec.amplitude (withBoundary b e).channels 2 ⟨e, [1 / 2, 2], 1 / 10⟩ (0 : Fin 2) = 1 / 2 := by
    unfold Spec.amplitude
    exact if_neg ho
  have hamp1 : Spec.amplitude (withBoundary b e).channels 2 ⟨e, [1 / 2, 2], 1 / 10⟩ (1 : Fin 2) = 0 := by
    unfold Spec.amplitude
    exact if_pos hc
  have hfac : Spec.incidentFactor constants (withBoundary b e).channels 2
      = Real.pi / elastic.waveNumber constants 2 ^ 2 * elastic.spinFactor := by
    have : (withBoundary b e).channels.find? Channel.isIncident = some elastic := by
      simp only [withBoundary, List.find?_cons, hinc0]
    simp only [Spec.incidentFactor, this]
  have hw0 : Spec.partialWidth (withBoundary b e).channels ⟨e, [1 / 2, 2], 1 / 10⟩ 2 P' (0 : Fin 2) = P / 2 := by
    have : Spec.partialWidth (withBoundary b e).channels ⟨e, [1 / 2, 2], 1 / 10⟩ 2 P' (0 : Fin 2)
      = 2 * P' (0 : Fin 2)
        * Spec.amplitude (withBoundary b e).channels 2 ⟨e, [1 / 2, 2], 1 / 10⟩ (0 : Fin 2) ^ 2 := rfl
    rw [this, hamp0, hP']
    ring
  have hw1 : Spec.partialWidth (withBoundary b e).channels ⟨e, [1 / 2, 2], 1 / 10⟩ 2 P' (1 : Fin 2) = 0 := by
    have : Spec.partialWidth (withBoundary b e).channels ⟨e, [1 / 2, 2], 1 / 10⟩ 2 P' (1 : Fin 2)
      = 2 * P' (1 : Fin 2)
        * Spec.amplitude (withBoundary b e).channels 2 ⟨e, [1 / 2, 2], 1 / 10⟩ (1 : Fin 2) ^ 2 := rfl
    rw [this, hamp1]
    ring
  have htot : Spec.totalWidth (withBoundary b e).channels ⟨e, [1 / 2, 2], 1 / 10⟩ 2 P' = 1 / 50 + P / 2 := by
    have : Spec.totalWidth (withBoundary b e).channels ⟨e, [1 / 2, 2], 1 / 10⟩ 2 P' = 2 * (1 / 10) ^ 2
      + (Spec.partialWidth (withBoundary b e).channels ⟨e, [1 / 2, 2], 1 / 10⟩ 2 P' (0 : Fin 2)
        + Spec.partialWidth (withBoundary b e).channels ⟨e, [1 / 2, 2], 1 / 10⟩ 2 P' (1 : Fin 2)) :=
      congrArg (2 * (1 / 10) ^ 2 + ·) (Fin.sum_univ_two _)
    rw [this, hw0, hw1]
    norm_num
  have hcen : Spec.shiftedEnergy (withBoundary b e).channels ⟨e, [1 / 2, 2], 1 / 10⟩ 2 .constant S = e := by
    have : Spec.shiftedEnergy (withBoundary b e).channels ⟨e, [1 / 2, 2], 1 / 10⟩ 2 .constant S
      = e - ((S (0 : Fin 2) - 0)
          * Spec.amplitude (withBoundary b e).channels 2 ⟨e, [1 / 2, 2], 1 / 10⟩ (0 : Fin 2) ^ 2
        + (S (1 : Fin 2) - b)
          * Spec.amplitude (withBoundary b e).channels 2 ⟨e, [1 / 2, 2], 1 / 10⟩ (1 : Fin 2) ^ 2) :=
      congrArg (e - ·) (Fin.sum_univ_two _)
    rw [this, hamp0, hamp1, hS]
    ring
  have hreac : ∀ i : Fin (withBoundary b e).channels.length,
      (withBoundary b e).channels[i].reaction ≠ .transition pair.id "capture".toList := by
    intro i
    have hm : (withBoundary b e).channels[i] ∈ (withBoundary b e).channels := List.getElem_mem _
    generalize (withBoundary b e).channels[i] = d at hm
    simp only [withBoundary, List.mem_cons, List.not_mem_nil, or_false] at hm
    rcases hm with rfl | rfl
    · exact hr0
    · exact hr1
  have hmain : Spec.oneLevel .constant constants (withBoundary b e).channels ⟨e, [1 / 2, 2], 1 / 10⟩ 2 P' S w phi
      (.transition pair.id "capture".toList)
      = Real.pi / elastic.waveNumber constants 2 ^ 2 * elastic.spinFactor
        * (0 + Spec.lorentzian (Spec.partialWidth (withBoundary b e).channels ⟨e, [1 / 2, 2], 1 / 10⟩ 2 P'
          (0 : Fin 2)) (2 * (1 / 10) ^ 2) (1 / 50 + P / 2) e 2) := by
    unfold Spec.oneLevel
    simp only [htot, hcen, hfac]
    refine (Fin.sum_univ_two _).trans ?_
    refine (congrArg₂ (· + ·) ((if_pos hinc0).trans ?_) (if_neg (ne_true_of_eq_false hinc1))).trans (add_zero _)
    refine congrArg₂ (· * ·) rfl (congrArg₂ (· + ·) ?_ (if_pos hcap))
    exact Finset.sum_eq_zero fun c' _ => if_neg (hreac c')
  rw [hmain, hw0]
  simp only [Option.getD_none, Spec.lorentzian]
  norm_num

theorem withBoundary_same (b b' e e' : ℝ) :
    Spec.SameButBoundary (withBoundary b e).channels (withBoundary b' e').channels :=
  .cons rfl (.cons rfl .nil)

theorem withBoundary_change (b b' e : ℝ) : Spec.BoundaryChange (1 : Matrix (Fin 1) (Fin 1) ℝ)
    (withBoundary b e).channels (withBoundary b' (e - 4 * (b' - b))).channels
    (withBoundary b e).table.resonances (withBoundary b' (e - 4 * (b' - b))).table.resonances := by
  have h := C87_one_resonance (withBoundary_same b b' e (e - 4 * (b' - b))) ⟨e, [1 / 2, 2], 1 / 10⟩ rfl
  have hsum : ∑ c : Fin (withBoundary b e).channels.length, Resonance.width ⟨e, [1 / 2, 2], 1 / 10⟩ c ^ 2
      * Spec.boundaryShift (withBoundary b e).channels (withBoundary b' (e - 4 * (b' - b))).channels c
      = 4 * (b' - b) := by
    refine (Fin.sum_univ_two _).trans ?_
    change (1 / 2 : ℝ) ^ 2 * (0 - 0) + 2 ^ 2 * (b' - b) = _
    ring
  rw [hsum] at h
  exact h

end Example

open Example in
/-- C87: the condition on closed channels is necessary. Here the boundary condition of a closed channel is changed
from 0 to 1, with the resonance transformed accordingly, and the capture cross section is another one: the code
leaves closed channels out, instead of giving them their shift factors. -/
theorem C87_closed_channel (lib : CoulombLibrary) : ∃ g g' : SpinGroup, g.Built ∧ g'.Built ∧
    Spec.BoundaryChange (1 : Matrix (Fin 1) (Fin 1) ℝ) g.channels g'.channels g.table.resonances
      g'.table.resonances ∧
    (∀ r ∈ g'.table.resonances, ¬ (r.energy = 2 ∧ r.eliminated = 0)) ∧
    ∀ cache cache', ∃ m c m' c', g.evaluate .constant constants lib 2 cache (fun _ => none) = .ok (m, c) ∧
      g'.evaluate .constant constants lib 2 cache' (fun _ => none) = .ok (m', c') ∧
      m (.transition pair.id "capture".toList) ≠ m' (.transition pair.id "capture".toList) := by
  refine ⟨withBoundary 0 3, withBoundary 1 (3 - 4 * (1 - 0)), withBoundary_built _ _, withBoundary_built _ _,
    withBoundary_change 0 1 3, by simp [withBoundary], fun cache cache' => ?_⟩
  have hn := neutralAt elastic (by simp [group, channels])
  obtain ⟨P, hP0, hP⟩ := (hn.values (K := constants) (lib := lib)).1
  obtain ⟨m, c, h1, h2⟩ := withBoundary_capture 0 3 lib cache hP
  obtain ⟨m', c', h1', h2'⟩ := withBoundary_capture 1 (3 - 4 * (1 - 0)) lib cache' hP
  refine ⟨m, c, m', c', h1, h1', ?_⟩
  rw [h2, h2']
  intro h3
  have h4 := Option.some.inj h3
  have hk : 0 < elastic.waveNumber constants 2 := waveNumber_pos (hn.mass (Or.inr rfl)) hn.notThreshold
  have hg : (0 : ℝ) < elastic.spinFactor := by
    have : 0 < elastic.spinFactor := by
      refine spinFactor_pos _ _ _ _ _ _ _ _ ?_ ?_ ?_ <;> norm_num [pair, neutron, target]
    exact_mod_cast this
  have hF : 0 < Real.pi / elastic.waveNumber constants 2 ^ 2 * elastic.spinFactor := by positivity
  have h5 := mul_left_cancel₀ hF.ne' h4
  rw [div_eq_div_iff (by positivity) (by positivity)] at h5
  have h6 : P / 2 * (1 / 50) ≠ 0 := by positivity
  have h7 := mul_left_cancel₀ h6 h5
  norm_num at h7

open Example in
/-- The boundary condition of a channel changed from 0 to 1 at an energy above its threshold. -/
example : ∀ c : Fin (withBoundary 0 3).channels.length, (withBoundary 0 3).channels[c].belowThreshold 1000 →
    Spec.boundaryShift (withBoundary 0 3).channels (withBoundary 1 (3 - 4 * (1 - 0))).channels c = 0 := by
  intro c hc
  exfalso
  have hm : (withBoundary 0 3).channels[c] ∈ (withBoundary 0 3).channels := List.getElem_mem _
  generalize (withBoundary 0 3).channels[c] = d at hm hc
  simp only [withBoundary, List.mem_cons, List.not_mem_nil, or_false] at hm
  rcases hm with rfl | rfl <;> norm_num [Channel.belowThreshold, elastic, inelastic, makeChannel, pair] at hc

end Verif
