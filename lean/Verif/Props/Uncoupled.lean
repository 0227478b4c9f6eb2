import Verif.Lemmas.Uncoupled
import Verif.Props.SpinGroupSymmetry
import Verif.Props.LowEnergy

/-!
# Property C77: channels and resonances that take no part may be left out
-/

namespace Verif

open Complex Matrix

variable {option : BoundaryOption} {K : Constants} {lib : CoulombLibrary} {E : ℝ}

theorem leavesOut_mem {channels channels' : List Channel} {σ : Fin channels.length → Fin channels'.length}
    {rs rs' : List Resonance} (h : Spec.LeavesOut E σ rs rs') {c : Channel} (hc : c ∈ channels) :
    c ∈ channels' := by
  obtain ⟨i, hi, rfl⟩ := List.getElem_of_mem hc
  have : channels'[σ ⟨i, hi⟩] = channels[i] := h.sameChannels ⟨i, hi⟩
  rw [← this]
  exact List.getElem_mem _

theorem leavesOut_reactions {g g' : SpinGroup} (hg : g.Built) (hg' : g'.Built)
    {σ : Fin g.channels.length → Fin g'.channels.length}
    (h : Spec.LeavesOut E σ g.table.resonances g'.table.resonances) :
    Spec.captureID g'.channels = Spec.captureID g.channels ∧ ∀ id ∈ g.reactions, id ∈ g'.reactions := by
  obtain ⟨-, first, rest, h2, h3, -⟩ := hg.incident
  obtain ⟨-, first', rest', h2', h3', -⟩ := hg'.incident
  have hfirst : first'.incident.id = first.incident.id := by
    have hm1 : first' ∈ g'.channels := by rw [h2']; simp
    have hm2 : first ∈ g'.channels := leavesOut_mem h (by rw [h2]; simp)
    exact ((C24_accepted _ _).mp ⟨g', hg'⟩).sameIncident _ hm1 _ hm2
  refine ⟨by rw [captureID_eq h2, captureID_eq h2', hfirst], fun id hid => ?_⟩
  rw [h3, List.mem_append] at hid
  rw [h3', hfirst, List.mem_append]
  refine hid.imp (fun h4 => ?_) fun h4 => h4
  obtain ⟨c, hc, rfl⟩ := List.mem_map.mp h4
  exact List.mem_map.mpr ⟨c, leavesOut_mem h hc, rfl⟩

/-- C77: if a spin group can be evaluated, then so can the one from which channels are left out that take no
part at this energy; it gives the same cross sections. The cross sections of reactions that have lost all
channels are zero in the larger group: it adds nothing to them. -/
theorem C77_channels_left_out {g g' : SpinGroup} (hg : g.Built) (hg' : g'.Built)
    {σ : Fin g.channels.length → Fin g'.channels.length}
    (h : Spec.LeavesOut E σ g.table.resonances g'.table.resonances)
    {cache₁ cache₂ : MatrixCache g'.channels.length} {start' m' : CrossSectionMap}
    (hok : g'.evaluate option K lib E cache₁ start' = .ok (m', cache₂))
    (cache : MatrixCache g.channels.length) (start : CrossSectionMap)
    (hstart : ∀ id, (start id).getD 0 = (start' id).getD 0) :
    ∃ m c, g.evaluate option K lib E cache start = .ok (m, c) ∧
      (∀ id, (m' id).getD 0 = (m id).getD 0) ∧ (∀ id ∈ g.reactions, m' id = m id) ∧
      ∀ id ∉ g.reactions, (m' id).getD 0 = (start' id).getD 0 := by
  obtain ⟨P, S, w, phi, hev', hres'⟩ := evaluate_ok hg' hok
  obtain ⟨hev, -⟩ := (Evaluable_leavesOut h).mp hev'
  obtain ⟨⟨m, c⟩, hm⟩ := evaluate_ok_of hg hev cache start
  obtain ⟨P₂, S₂, w₂, phi₂, hev₂, hres⟩ := evaluate_ok hg hm
  obtain ⟨hcap, hmem⟩ := leavesOut_reactions hg hg' h
  have hcon : ∀ id, Spec.contribution option K g'.channels g'.table.resonances E P S w phi id
      = Spec.contribution option K g.channels g.table.resonances E P₂ S₂ w₂ phi₂ id := fun id => by
    rw [contribution_leavesOut h hev.invertible hcap id, Evaluable_contribution hev hev₂ id]
  have h1 : ∀ id ∈ g.reactions, m' id = m id := fun id hid => by
    rw [hres' id, hres id, if_pos hid, if_pos (hmem id hid), hcon id, hstart id]
  have h2 : ∀ id ∉ g.reactions, (m' id).getD 0 = (start' id).getD 0 := fun id hid => by
    rw [hres' id]
    split
    · rw [Option.getD_some, hcon id, contribution_absent hg hid, add_zero]
    · rfl
  refine ⟨m, c, hm, fun id => ?_, h1, h2⟩
  by_cases hid : id ∈ g.reactions
  · rw [h1 id hid]
  · rw [h2 id hid, hres id, if_neg hid, hstart]

/-- C77, the other direction: a spin group with more channels that take no part at this energy can be
evaluated if the smaller one can, and the functions of the additional channels have values. -/
theorem C77_channels_added {g g' : SpinGroup} (hg : g.Built) (hg' : g'.Built)
    {σ : Fin g.channels.length → Fin g'.channels.length}
    (h : Spec.LeavesOut E σ g.table.resonances g'.table.resonances)
    (hvalues : ∀ j : Fin g'.channels.length, j ∉ Set.range σ →
      (∃ p, 0 ≤ p ∧ g'.channels[j].penetrability K lib E = .ok p) ∧
      (option = .constant → ∃ s, g'.channels[j].shiftFactor K lib E = .ok s) ∧
      (∃ w, g'.channels[j].coulombPhaseShift K E = .ok w) ∧
      ∃ phi, g'.channels[j].phaseShift K lib E = .ok phi)
    {cache₁ cache₂ : MatrixCache g.channels.length} {start m : CrossSectionMap}
    (hok : g.evaluate option K lib E cache₁ start = .ok (m, cache₂))
    (cache : MatrixCache g'.channels.length) (start' : CrossSectionMap)
    (hstart : ∀ id, (start id).getD 0 = (start' id).getD 0) :
    ∃ m' c, g'.evaluate option K lib E cache start' = .ok (m', c) ∧
      (∀ id, (m' id).getD 0 = (m id).getD 0) ∧ (∀ id ∈ g.reactions, m' id = m id) ∧
      ∀ id ∉ g.reactions, (m' id).getD 0 = (start' id).getD 0 := by
  classical
  obtain ⟨P, S, w, phi, hev, -⟩ := evaluate_ok hg hok
  have hσ := h.order.injective
  -- every function of the channels has an extension
  have hext : ∀ (f : Fin g.channels.length → ℝ) (p : Fin g'.channels.length → ℝ → Prop),
      (∀ j, j ∉ Set.range σ → ∃ x, p j x) →
      ∃ f' : Fin g'.channels.length → ℝ, f' ∘ σ = f ∧ ∀ j, j ∉ Set.range σ → p j (f' j) := by
    intro f p hp
    refine ⟨fun j => if hj : ∃ i, σ i = j then f hj.choose else (hp j hj).choose, ?_, fun j hj => ?_⟩
    · funext i
      have hi : ∃ k, σ k = σ i := ⟨i, rfl⟩
      rw [Function.comp_apply, dif_pos hi, hσ hi.choose_spec]
    · have hj' : ¬ ∃ i, σ i = j := hj
      dsimp only
      rw [dif_neg hj']
      exact (hp j hj).choose_spec
  obtain ⟨P', rfl, hP⟩ := hext P (fun j x => 0 ≤ x ∧ g'.channels[j].penetrability K lib E = .ok x)
    fun j hj => (hvalues j hj).1
  obtain ⟨S', rfl, hS⟩ := hext S (fun j x => option = .constant → g'.channels[j].shiftFactor K lib E = .ok x)
    fun j hj => by
      by_cases ho : option = .constant
      · obtain ⟨s, hs⟩ := (hvalues j hj).2.1 ho
        exact ⟨s, fun _ => hs⟩
      · exact ⟨0, fun h => absurd h ho⟩
  obtain ⟨w', rfl, hw⟩ := hext w (fun j x => g'.channels[j].coulombPhaseShift K E = .ok x)
    fun j hj => (hvalues j hj).2.2.1
  obtain ⟨phi', rfl, hphi⟩ := hext phi (fun j x => g'.channels[j].phaseShift K lib E = .ok x)
    fun j hj => (hvalues j hj).2.2.2
  have hev' := (Evaluable_leavesOut (option := option) (K := K) (lib := lib) h).mpr
    ⟨hev, fun j hj => ⟨(hP j hj).2, hS j hj, hw j hj, hphi j hj, (hP j hj).1⟩⟩
  obtain ⟨⟨m', c'⟩, hm'⟩ := evaluate_ok_of hg' hev' cache start'
  obtain ⟨m₂, c₂, h1, h2⟩ := C77_channels_left_out hg hg' h hm' cache₁ start hstart
  rw [hok] at h1
  cases h1
  exact ⟨m', c', hm', h2⟩

/-- C77 for the T-matrix: the elements between the kept channels are the same, and those from or to a
channel that is left out are zero. -/
theorem C77_t_matrix {g g' : SpinGroup} (hg : g.Built) (hg' : g'.Built)
    {σ : Fin g.channels.length → Fin g'.channels.length}
    (h : Spec.LeavesOut E σ g.table.resonances g'.table.resonances)
    (harrow : ∀ c ∈ g'.channels, ¬ ContainsArrow c.id)
    {cache₁ cache₁' : MatrixCache g.channels.length} {cache₂ cache₂' : MatrixCache g'.channels.length}
    {start start' t t' : Str → Option ℂ}
    (hok : g.evaluateTMatrix option K lib E cache₁ start = .ok (t, cache₁'))
    (hok' : g'.evaluateTMatrix option K lib E cache₂ start' = .ok (t', cache₂')) :
    (∀ c ∈ g.channels, ∀ d ∈ g.channels, t' (tMatrixKey c.id d.id) = t (tMatrixKey c.id d.id)) ∧
    ∀ c d : Fin g'.channels.length, c ∉ Set.range σ ∨ d ∉ Set.range σ →
      t' (tMatrixKey g'.channels[c].id g'.channels[d].id) = some 0 := by
  obtain ⟨P, S, hP, hS, -, -, hdet, hT, -⟩ :=
    evaluateTMatrix_ok hg (fun c hc => harrow c (leavesOut_mem h hc)) hok
  obtain ⟨P', S', hP', hS', -, -, hdet', hT', -⟩ := evaluateTMatrix_ok hg' harrow hok'
  have hPP : P = P' ∘ σ := by
    funext i
    have := hP' (σ i)
    rw [h.sameChannels i, hP i] at this
    exact Except.ok.inj this
  have hSS : Spec.tMatrix option g.channels g.table.resonances E P S
      = Spec.tMatrix option g.channels g.table.resonances E (P' ∘ σ) (S' ∘ σ) ∧
      Spec.levelDenominator option g.channels g.table.resonances E P S
      = Spec.levelDenominator option g.channels g.table.resonances E (P' ∘ σ) (S' ∘ σ) := by
    cases option with
    | shiftFactor => rw [hPP]; exact ⟨rfl, rfl⟩
    | constant =>
      have : S = S' ∘ σ := by
        funext i
        have := hS' rfl (σ i)
        rw [h.sameChannels i, hS rfl i] at this
        exact Except.ok.inj this
      rw [hPP, this]
      exact ⟨rfl, rfl⟩
  rw [hSS.2] at hdet
  obtain ⟨h1, h2⟩ := (levels_leavesOut (option := option) (P := P') (S := S') h).2 hdet
  refine ⟨fun c hc d hd => ?_, fun c d hcd => ?_⟩
  · obtain ⟨i, hi, rfl⟩ := List.getElem_of_mem hc
    obtain ⟨j, hj, rfl⟩ := List.getElem_of_mem hd
    have h3 := hT' (σ ⟨i, hi⟩) (σ ⟨j, hj⟩)
    have h4 := hT ⟨i, hi⟩ ⟨j, hj⟩
    rw [h.sameChannels, h.sameChannels, h1, ← hSS.1] at h3
    exact h3.trans h4.symm
  · rw [hT' c d]
    congr 1
    rcases hcd with hc | hd
    · rw [tMatrix_symm hdet' c d]
      exact h2 d c hc
    · exact h2 c d hd

/-- C77 for a compound system, from whose spin groups channels are left out. -/
theorem C77_system {s s' : CompoundSystem} (hg : ∀ st ∈ s, st.group.Built) (hg' : ∀ st ∈ s', st.group.Built)
    (h : List.Forall₂ (fun st st' : GroupState =>
      ∃ σ : Fin st.group.channels.length → Fin st'.group.channels.length,
        Spec.LeavesOut E σ st.group.table.resonances st'.group.table.resonances) s s')
    {start' m' : CrossSectionMap} {s₂' : CompoundSystem}
    (hok : CompoundSystem.evaluate option K lib E s' start' = .ok (m', s₂'))
    (start : CrossSectionMap) (hstart : ∀ id, (start id).getD 0 = (start' id).getD 0) :
    ∃ m s₂, CompoundSystem.evaluate option K lib E s start = .ok (m, s₂) ∧
      ∀ id, (m' id).getD 0 = (m id).getD 0 := by
  induction h generalizing start' start m' s₂' with
  | nil =>
    rw [evaluate_nil] at hok
    cases hok
    exact ⟨start, [], rfl, fun id => (hstart id).symm⟩
  | @cons st st' s s' h1 _ ih =>
    obtain ⟨σ, h1⟩ := h1
    obtain ⟨r, c, rest, h2, h3, rfl⟩ := evaluate_cons_ok.mp hok
    obtain ⟨m, c', h4, h5, -⟩ := C77_channels_left_out (hg st List.mem_cons_self)
      (hg' st' List.mem_cons_self) h1 h2 st.cache start hstart
    obtain ⟨m₂, s₂, h6, h7⟩ := ih (fun x hx => hg x (List.mem_cons_of_mem _ hx))
      (fun x hx => hg' x (List.mem_cons_of_mem _ hx)) h3 m fun id => (h5 id).symm
    exact ⟨m₂, _, evaluate_cons_ok.mpr ⟨_, _, _, h4, h6, rfl⟩, h7⟩

/-- C77 for resonances: those whose widths in all open channels are zero may be left out of the table,
whatever their eliminated widths. -/
theorem C77_resonances_left_out (channels : List Channel) (reactions : List ReactionID)
    (incident : List (Fin channels.length)) (ids : List Str) {rs extra rs' : List Resonance}
    (h : rs'.Perm (rs ++ extra))
    (hextra : ∀ r ∈ extra, r.widths.length = channels.length ∧ ¬ (r.energy = E ∧ r.eliminated = 0) ∧
      ∀ c : Fin channels.length, channels[c].belowThreshold E ∨ r.width c = 0)
    (cache : MatrixCache channels.length) (result : CrossSectionMap) (tresult : Str → Option ℂ) :
    SpinGroup.evaluate option K lib ⟨channels, reactions, incident, ⟨ids, rs'⟩⟩ E cache result
      = SpinGroup.evaluate option K lib ⟨channels, reactions, incident, ⟨ids, rs⟩⟩ E cache result ∧
    SpinGroup.evaluateTMatrix option K lib ⟨channels, reactions, incident, ⟨ids, rs'⟩⟩ E cache tresult
      = SpinGroup.evaluateTMatrix option K lib ⟨channels, reactions, incident, ⟨ids, rs⟩⟩ E cache tresult := by
  have hmem : ∀ r, r ∈ rs' ↔ r ∈ rs ∨ r ∈ extra := fun r => by rw [h.mem_iff, List.mem_append]
  have hR : Spec.rMatrix channels rs' E = Spec.rMatrix channels rs E := by
    rw [rMatrix_perm h]
    ext i j
    simp only [Spec.rMatrix, Matrix.of_apply, List.map_append, List.sum_append]
    rw [add_eq_left]
    apply List.sum_eq_zero
    intro x hx
    obtain ⟨r, hr, rfl⟩ := List.mem_map.mp hx
    have : Spec.amplitude channels E r i = 0 := by
      unfold Spec.amplitude
      rcases (hextra r hr).2.2 i with h2 | h2
      · rw [if_pos h2]
      · rw [h2, ite_self]
    rw [this]
    simp
  have key : ∀ P, rlmatrix option K lib channels rs' E P cache
      = rlmatrix option K lib channels rs E P cache := by
    intro P
    refine rlmatrix_congr ⟨fun h2 r hr => h2 r ((hmem r).mpr (Or.inl hr)), fun h2 r hr => ?_⟩
      ⟨fun ⟨r, hr, h0⟩ => ?_, fun ⟨r, hr, h0⟩ => ⟨r, (hmem r).mpr (Or.inl hr), h0⟩⟩ hR
    · rcases (hmem r).mp hr with hr | hr
      · exact h2 r hr
      · exact (hextra r hr).1
    · rcases (hmem r).mp hr with hr | hr
      · exact ⟨r, hr, h0⟩
      · exact absurd h0 ((denominator_ne_zero r E).mpr (hextra r hr).2.1)
  refine ⟨?_, ?_⟩
  · simp only [SpinGroup.evaluate, SpinGroup.prepare, key]
    cases incident <;> rfl
  · simp only [SpinGroup.evaluateTMatrix, key]

namespace Example

/-- The example without its inelastic channel, which is closed at energy 2 and the second of three. -/
theorem leavesOut : Spec.LeavesOut 2 (channels := [elastic, fission]) (channels' := channels)
    (fun i => if i.val = 0 then ⟨0, by decide⟩ else ⟨2, by decide⟩)
    [⟨1, [1 / 2, 1 / 5], 1 / 10⟩, ⟨5, [1 / 4, 1], 0⟩] resonances := by
  have two : ∀ p : Fin [elastic, fission].length → Prop, p ⟨0, by decide⟩ → p ⟨1, by decide⟩ → ∀ i, p i := by
    rintro p h0 h1 ⟨i, hi⟩
    have hi2 : i < 2 := hi
    interval_cases i
    · exact h0
    · exact h1
  have other : ∀ j : Fin channels.length, j ∉ Set.range (fun i : Fin [elastic, fission].length =>
      if i.val = 0 then (⟨0, by decide⟩ : Fin channels.length) else ⟨2, by decide⟩) → j = ⟨1, by decide⟩ := by
    rintro ⟨j, hj⟩ h
    have hj3 : j < 3 := hj
    interval_cases j
    · exact absurd ⟨⟨0, by decide⟩, rfl⟩ h
    · rfl
    · exact absurd ⟨⟨1, by decide⟩, rfl⟩ h
  refine ⟨?_, two _ rfl rfl, fun j hj => ?_, .cons ⟨rfl, rfl, ?_, two _ rfl rfl, fun j hj => ?_⟩
    (.cons ⟨rfl, rfl, ?_, two _ rfl rfl, fun j hj => ?_⟩ .nil)⟩
  · rintro ⟨i, hi⟩ ⟨j, hj⟩ hij
    have hj2 : j < 2 := hj
    have hij' : i < j := hij
    have h1 : i = 0 := by omega
    have h2 : j ≠ 0 := by omega
    subst h1
    simp [h2]
  · rw [other j hj]; decide
  · exact ⟨fun _ => rfl, fun _ => rfl⟩
  · rw [other j hj]; exact Or.inl closed
  · exact ⟨fun _ => rfl, fun _ => rfl⟩
  · rw [other j hj]; exact Or.inl closed

theorem leavesOut_consistent : Spec.ConsistentGroup [elastic, fission]
    ⟨[elastic.id, fission.id], [⟨1, [1 / 2, 1 / 5], 1 / 10⟩, ⟨5, [1 / 4, 1], 0⟩]⟩ := by
  refine ⟨by simp, ?_, ?_, ?_, ?_, rfl⟩
  · intro c hc d hd
    simp only [List.mem_cons, List.not_mem_nil, or_false] at hc hd
    rcases hc with rfl | rfl <;> rcases hd with rfl | rfl <;> rfl
  · have h := consistent.uniqueIDs
    simp only [channels, List.map_cons, List.map_nil, List.nodup_cons, List.mem_cons] at h
    simp only [List.map_cons, List.map_nil, List.nodup_cons, List.mem_cons, List.not_mem_nil]
    tauto
  · intro c hc d hd
    simp only [List.mem_cons, List.not_mem_nil, or_false] at hc hd
    rcases hc with rfl | rfl <;> rcases hd with rfl | rfl <;> exact ⟨rfl, rfl⟩
  · exact ⟨elastic, by simp, rfl⟩

/-- C77 applies: the spin group of the example and the one without the inelastic channel can both be
evaluated at energy 2 and give the same cross sections. -/
example (option : BoundaryOption) (lib : CoulombLibrary) :
    ∃ g : SpinGroup, g.Built ∧ g.channels = [elastic, fission] ∧
      ∀ (cache : MatrixCache g.channels.length) (cache' : MatrixCache group.channels.length),
      ∃ m c m' c', g.evaluate option constants lib 2 cache (fun _ => none) = .ok (m, c) ∧
        group.evaluate option constants lib 2 cache' (fun _ => none) = .ok (m', c') ∧
        ∀ id, (m' id).getD 0 = (m id).getD 0 := by
  obtain ⟨g, hg⟩ := (C24_accepted _ _).mpr leavesOut_consistent
  obtain ⟨hb, h1, h2⟩ := SpinGroup.Built.of_make hg
  refine ⟨g, hb, h1, fun cache cache' => ?_⟩
  obtain ⟨⟨m', c'⟩, h3⟩ := (evaluates option lib cache' (fun _ => none) fun _ => none).1
  obtain ⟨channels', r, i, t⟩ := g
  simp only at h1 h2
  subst h1 h2
  obtain ⟨m, c, h4, h5, -⟩ := C77_channels_left_out hb group_built leavesOut h3 cache (fun _ => none)
    fun _ => rfl
  exact ⟨m, c, m', c', h4, h3, h5⟩

/-- A resonance that C77 allows to leave out of the table of the example at energy 2: it has a width in the
closed channel only. -/
example : ∀ r ∈ [(⟨3, [0, 7, 0], 1⟩ : Resonance)], r.widths.length = channels.length ∧
    ¬ (r.energy = 2 ∧ r.eliminated = 0) ∧
    ∀ c : Fin channels.length, channels[c].belowThreshold 2 ∨ r.width c = 0 := by
  intro r hr
  obtain rfl := List.mem_singleton.mp hr
  refine ⟨rfl, by norm_num, ?_⟩
  rintro ⟨c, hc⟩
  have hc3 : c < 3 := hc
  interval_cases c
  · exact Or.inr rfl
  · exact Or.inl closed
  · exact Or.inr rfl

end Example

end Verif
