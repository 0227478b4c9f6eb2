import Verif.Props.DetailedBalance
import Verif.Props.BoundaryChangeT

/-!
# Property C90 for the T-matrix
-/

namespace Verif

open Complex Matrix

variable {option : BoundaryOption} {K : Constants} {lib : CoulombLibrary} {E Q : ℝ} {a b : ParticlePair}
  {channels : List Channel} {rs : List Resonance}

theorem inverse_tMatrix (h : Spec.TwoPairs a b) (hc : Spec.ChannelsOf a b Q channels)
    {P S : Fin channels.length → ℝ} (i j : Fin channels.length) :
    Spec.tMatrix option (channels.map (Spec.inverseChannel a b Q))
      (rs.map (Spec.inverseResonance a b Q)) (Spec.inverseEnergy a b Q E)
      (P ∘ (inverseIndex a b Q channels).symm) (S ∘ (inverseIndex a b Q channels).symm)
      (inverseIndex a b Q channels i) (inverseIndex a b Q channels j)
      = Spec.tMatrix option channels rs E P S i j := by
  simp only [Spec.tMatrix, Matrix.of_apply, Function.comp_apply, Equiv.symm_apply_apply]
  rw [← inverse_denominator h hc, ← inverse_rMatrix h hc, inv_submatrix_equiv, submatrix_mul_equiv,
    Matrix.submatrix_apply]

/-- C90 for the T-matrix of a spin group: it belongs to the compound nucleus, and does not depend on which pair of
particles is the incident one. -/
theorem C90_t_matrix {g g' : SpinGroup} (hg : g.Built) (hg' : g'.Built) (h : Spec.TwoPairs a b)
    (hc : Spec.ChannelsOf a b Q g.channels)
    (hchannels : g'.channels = g.channels.map (Spec.inverseChannel a b Q))
    (hresonances : g'.table.resonances = g.table.resonances.map (Spec.inverseResonance a b Q))
    (harrow : ∀ c ∈ g.channels, ¬ ContainsArrow c.id)
    {cache c : MatrixCache g.channels.length} {start m : Str → Option ℂ}
    (hok : g.evaluateTMatrix option K lib E cache start = .ok (m, c))
    (cache' : MatrixCache g'.channels.length) :
    ∃ c', g'.evaluateTMatrix option K lib (Spec.inverseEnergy a b Q E) cache' start = .ok (m, c') := by
  obtain ⟨P, S, hP, hS, hnn, hwid, hdet, hel, hrest⟩ := evaluateTMatrix_ok hg harrow hok
  have hpole := evaluateTMatrix_noPole hok
  obtain ⟨channels', reactions', incident', table'⟩ := g'
  obtain ⟨tc, trs⟩ := table'
  dsimp only at hchannels hresonances
  subst hchannels hresonances
  set σ := inverseIndex a b Q g.channels with hσ
  have hget : ∀ i, (g.channels.map (Spec.inverseChannel a b Q))[i]
      = Spec.inverseChannel a b Q g.channels[σ.symm i] := fun i => List.getElem_map _
  have hin : ∀ i : Fin g.channels.length, g.channels[i].incident = a := fun i => hc.incident _ (List.getElem_mem _)
  have harrow' : ∀ c ∈ g.channels.map (Spec.inverseChannel a b Q), ¬ ContainsArrow c.id := by
    intro c hcm
    obtain ⟨d, hd, rfl⟩ := List.mem_map.mp hcm
    exact harrow d hd
  have hP' : ∀ i : Fin (g.channels.map (Spec.inverseChannel a b Q)).length,
      (g.channels.map (Spec.inverseChannel a b Q))[i].penetrability K lib
      (Spec.inverseEnergy a b Q E) = .ok ((P ∘ σ.symm) i) := by
    intro i
    rw [hget i, (inverse_functions h (hin _)).1]
    exact hP _
  have hS' : option = .constant → ∀ i : Fin (g.channels.map (Spec.inverseChannel a b Q)).length,
      (g.channels.map (Spec.inverseChannel a b Q))[i].shiftFactor K lib
      (Spec.inverseEnergy a b Q E) = .ok ((S ∘ σ.symm) i) := by
    intro ho i
    rw [hget i, (inverse_functions h (hin _)).2.1]
    exact hS ho _
  obtain ⟨⟨m', c'⟩, e⟩ := evaluateTMatrix_succeeds (option := option) (E := Spec.inverseEnergy a b Q E)
    (g := ⟨g.channels.map (Spec.inverseChannel a b Q), reactions', incident',
      ⟨tc, g.table.resonances.map (Spec.inverseResonance a b Q)⟩⟩) hP' hS' (fun i => hnn _) (by
      intro r' hr'
      obtain ⟨r, hr, rfl⟩ := List.mem_map.mp hr'
      change _ = (g.channels.map (Spec.inverseChannel a b Q)).length
      rw [List.length_map, ← hwid r hr]
      exact List.length_map _) (by
      intro r' hr'
      obtain ⟨r, hr, rfl⟩ := List.mem_map.mp hr'
      rintro ⟨h1, h2⟩
      have hrat := Real.sqrt_pos.mpr (div_pos h.massRatio.1 h.massRatio.2)
      refine hpole r hr ⟨?_, (mul_eq_zero.mp h2).resolve_left hrat.ne'⟩
      have : Spec.inverseEnergy a b Q r.energy = Spec.inverseEnergy a b Q E := h1
      rw [← inverseEnergy_back (Q := Q) (E := r.energy) h, this, inverseEnergy_back h]) (by
      have := hdet
      rwa [← inverse_denominator h hc, det_submatrix_equiv_self] at this) cache' start
  refine ⟨c', ?_⟩
  rw [e]
  congr 2
  obtain ⟨P₂, S₂, hP₂, hS₂, -, -, -, hel₂, hrest₂⟩ := evaluateTMatrix_ok hg' harrow' e
  dsimp only at hP₂ hS₂ hel₂ hrest₂
  have eP : P₂ = P ∘ σ.symm := funext fun i => Except.ok.inj ((hP₂ i).symm.trans (hP' i))
  have eS : Spec.tMatrix option (g.channels.map (Spec.inverseChannel a b Q))
        (g.table.resonances.map (Spec.inverseResonance a b Q)) (Spec.inverseEnergy a b Q E) P₂ S₂
      = Spec.tMatrix option (g.channels.map (Spec.inverseChannel a b Q))
        (g.table.resonances.map (Spec.inverseResonance a b Q)) (Spec.inverseEnergy a b Q E) (P ∘ σ.symm)
        (S ∘ σ.symm) := by
    rw [eP]
    clear * - hS' hS₂
    cases option with
    | shiftFactor => rfl
    | constant =>
      have : S₂ = S ∘ σ.symm := funext fun i => Except.ok.inj ((hS₂ rfl i).symm.trans (hS' rfl i))
      rw [this]
  funext key
  by_cases hk : ∃ c ∈ g.channels, ∃ c' ∈ g.channels, key = tMatrixKey c.id c'.id
  · obtain ⟨c, hcm, d, hd, rfl⟩ := hk
    obtain ⟨i, hi, rfl⟩ := List.getElem_of_mem hcm
    obtain ⟨j, hj, rfl⟩ := List.getElem_of_mem hd
    have h1 := hel ⟨i, hi⟩ ⟨j, hj⟩
    have h2 := hel₂ (σ ⟨i, hi⟩) (σ ⟨j, hj⟩)
    rw [eS, inverse_tMatrix h hc, inverse_getElem, inverse_getElem] at h2
    exact h2.trans h1.symm
  · push Not at hk
    rw [hrest key hk, hrest₂ key]
    intro c hcm d hd
    obtain ⟨c, hc', rfl⟩ := List.mem_map.mp hcm
    obtain ⟨d, hd', rfl⟩ := List.mem_map.mp hd
    exact hk c hc' d hd'

/-- C90 for the T-matrix of a compound system. -/
theorem C90_t_matrix_system {s s' : CompoundSystem} (hg : ∀ st ∈ s, st.group.Built)
    (hg' : ∀ st ∈ s', st.group.Built) (h : Spec.TwoPairs a b)
    (hc : ∀ st ∈ s, Spec.ChannelsOf a b Q st.group.channels) (hs : List.Forall₂ (Inverse a b Q) s s')
    (harrow : ∀ st ∈ s, ∀ c ∈ st.group.channels, ¬ ContainsArrow c.id) {start m : Str → Option ℂ}
    {s₂ : CompoundSystem} (hok : CompoundSystem.evaluateTMatrix option K lib E s start = .ok (m, s₂)) :
    ∃ s₂', CompoundSystem.evaluateTMatrix option K lib (Spec.inverseEnergy a b Q E) s' start = .ok (m, s₂') := by
  induction hs generalizing start s₂ with
  | nil =>
    cases hok
    exact ⟨[], rfl⟩
  | cons hst _ ih =>
    obtain ⟨r, c, rest, h1, h2, rfl⟩ := evaluateTMatrix_cons_ok.mp hok
    obtain ⟨c', e1⟩ := C90_t_matrix (hg _ List.mem_cons_self) (hg' _ List.mem_cons_self) h
      (hc _ List.mem_cons_self) hst.1 hst.2 (harrow _ List.mem_cons_self) h1 _
    obtain ⟨s₂', e2⟩ := ih (fun x hx => hg x (List.mem_cons_of_mem _ hx))
      (fun x hx => hg' x (List.mem_cons_of_mem _ hx)) (fun x hx => hc x (List.mem_cons_of_mem _ hx))
      (fun x hx => harrow x (List.mem_cons_of_mem _ hx)) h2
    exact ⟨_, evaluateTMatrix_cons_ok.mpr ⟨_, _, _, e1, e2, rfl⟩⟩

open Example in
/-- The group of the example, and that for neutrons scattered by the excited target. -/
example (option : BoundaryOption) (lib : CoulombLibrary) (cache : MatrixCache group.channels.length) :
    ∃ g', makeSpinGroup (group.channels.map (Spec.inverseChannel pair excited (-10)))
        ⟨group.table.channels, group.table.resonances.map (Spec.inverseResonance pair excited (-10))⟩ = .ok g' ∧
      ∀ cache', ∃ m c c', group.evaluateTMatrix option constants lib 2 cache (fun _ => none) = .ok (m, c) ∧
        g'.evaluateTMatrix option constants lib (-18) cache' (fun _ => none) = .ok (m, c') := by
  obtain ⟨g', hg'⟩ := (C90_accepted group_built pair excited (-10)).mpr
    ⟨inelastic, by simp [group, Example.channels], rfl⟩
  refine ⟨g', hg', fun cache' => ?_⟩
  obtain ⟨h1, h2, h3⟩ := SpinGroup.Built.of_make hg'
  obtain ⟨⟨m, c⟩, hm⟩ := (evaluates option lib cache (fun _ => none) (fun _ => none)).2
  obtain ⟨c', e⟩ := C90_t_matrix group_built h1 twoPairs channelsOf h2 (by rw [h3]) noArrow hm cache'
  have hE : Spec.inverseEnergy pair excited (-10) 2 = -18 := by norm_num [Spec.inverseEnergy, pair, excited]
  rw [hE] at e
  exact ⟨m, c, c', hm, e⟩

end Verif
