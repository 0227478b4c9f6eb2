import Verif.Props.BoundaryChangeT
import Verif.Props.SpinGroupSymmetry

/-!
# Property C20 for the T-matrix
-/

namespace Verif

open Complex Matrix

variable {option : BoundaryOption} {K : Constants} {lib : CoulombLibrary} {E : ℝ}

/-- C20 for the T-matrix: changing the signs of all widths of some channels (`ε`), of some resonances and of
eliminated widths changes the element between two channels by the product of their signs, and nothing else. -/
theorem C20_signs_t_matrix {channels : List Channel} {reactions : List ReactionID}
    {incident : List (Fin channels.length)} {ids : List Str} {rs rs' : List Resonance}
    (hg : SpinGroup.Built ⟨channels, reactions, incident, ⟨ids, rs⟩⟩)
    (harrow : ∀ c ∈ channels, ¬ ContainsArrow c.id)
    (ε : Fin channels.length → ℝ) (hε : ∀ c, ε c = 1 ∨ ε c = -1) (h : Spec.SignVariant ε rs rs')
    {cache c : MatrixCache channels.length} {start m : Str → Option ℂ}
    (hok : SpinGroup.evaluateTMatrix option K lib ⟨channels, reactions, incident, ⟨ids, rs⟩⟩ E cache start
      = .ok (m, c)) (cache' : MatrixCache channels.length) :
    ∃ m' c', SpinGroup.evaluateTMatrix option K lib ⟨channels, reactions, incident, ⟨ids, rs'⟩⟩ E cache' start
        = .ok (m', c') ∧
      (∀ i j : Fin channels.length, ∃ t, m (tMatrixKey channels[i].id channels[j].id) = some t ∧
        m' (tMatrixKey channels[i].id channels[j].id) = some (ε i * ε j * t)) ∧
      ∀ key, (∀ c ∈ channels, ∀ c' ∈ channels, key ≠ tMatrixKey c.id c'.id) → m' key = m key := by
  have hg' := hg.with_resonances rs'
  obtain ⟨P, S, hP, hS, hnn, hwid, hdet, hel, hrest⟩ := evaluateTMatrix_ok hg harrow hok
  have hpole := evaluateTMatrix_noPole hok
  dsimp only at *
  have hwid' : ∀ r ∈ rs', r.widths.length = channels.length := by
    clear * - h hwid
    induction h with
    | nil => simp
    | cons h1 _ ih =>
      simp only [List.mem_cons, forall_eq_or_imp] at hwid ⊢
      exact ⟨h1.2.2.1.trans hwid.1, ih hwid.2⟩
  have hpole' : ∀ r ∈ rs', ¬ (r.energy = E ∧ r.eliminated = 0) := by
    clear * - h hpole
    induction h with
    | nil => simp
    | cons h1 _ ih =>
      simp only [List.mem_cons, forall_eq_or_imp] at hpole ⊢
      refine ⟨?_, ih hpole.2⟩
      rintro ⟨e1, e2⟩
      apply hpole.1
      refine ⟨h1.1.symm.trans e1, ?_⟩
      have := h1.2.1
      rw [e2] at this
      simpa using this.symm
  obtain ⟨⟨m', c'⟩, e⟩ := evaluateTMatrix_succeeds (option := option)
    (g := ⟨channels, reactions, incident, ⟨ids, rs'⟩⟩) hP hS hnn hwid' hpole'
    (by rw [det_signVariant hε h]; exact hdet) cache' start
  obtain ⟨P₂, S₂, hP₂, hS₂, -, -, -, hel₂, hrest₂⟩ := evaluateTMatrix_ok hg' harrow e
  dsimp only at *
  have eP : P₂ = P := funext fun i => Except.ok.inj ((hP₂ i).symm.trans (hP i))
  subst eP
  refine ⟨m', c', e, fun i j => ⟨_, hel i j, ?_⟩, fun key hk => by rw [hrest key hk, hrest₂ key hk]⟩
  rw [hel₂ i j]
  congr 1
  have eS : Spec.tMatrix option channels rs' E P₂ S₂ i j = Spec.tMatrix option channels rs' E P₂ S i j := by
    cases option with
    | shiftFactor => rfl
    | constant =>
      have : S₂ = S := funext fun i => Except.ok.inj ((hS₂ rfl i).symm.trans (hS rfl i))
      rw [this]
  rw [eS, tMatrix_signVariant hε h]

/-- C20 for the T-matrix: the order of the channels is irrelevant, whatever the incident channels are. -/
theorem C20_channel_order_t_matrix {g g' : SpinGroup} (hg : g.Built) (hg' : g'.Built)
    (σ : Fin g.channels.length ≃ Fin g'.channels.length)
    (h : Spec.Reordered σ g.table.resonances g'.table.resonances)
    (harrow : ∀ c ∈ g.channels, ¬ ContainsArrow c.id)
    {cache c : MatrixCache g.channels.length} {start m : Str → Option ℂ}
    (hok : g.evaluateTMatrix option K lib E cache start = .ok (m, c))
    (cache' : MatrixCache g'.channels.length) :
    ∃ c', g'.evaluateTMatrix option K lib E cache' start = .ok (m, c') := by
  obtain ⟨P, S, hP, hS, hnn, hwid, hdet, hel, hrest⟩ := evaluateTMatrix_ok hg harrow hok
  have hpole := evaluateTMatrix_noPole hok
  have hch := h.sameChannels
  have hch' : ∀ i : Fin g'.channels.length, g'.channels[i] = g.channels[σ.symm i] := by
    intro i
    obtain ⟨j, rfl⟩ := σ.surjective i
    simpa using hch j
  have hP' : ∀ i : Fin g'.channels.length, g'.channels[i].penetrability K lib E = .ok ((P ∘ σ.symm) i) := by
    intro i; rw [hch' i]; exact hP _
  have hS' : option = .constant → ∀ i : Fin g'.channels.length,
      g'.channels[i].shiftFactor K lib E = .ok ((S ∘ σ.symm) i) := by
    intro ho i; rw [hch' i]; exact hS ho _
  have hwid' : ∀ r ∈ g'.table.resonances, r.widths.length = g'.channels.length := by
    have hr := h.resonances
    clear * - hr hwid
    generalize g.table.resonances = a at hr hwid
    generalize g'.table.resonances = b at hr
    induction hr with
    | nil => simp
    | cons h1 _ ih =>
      simp only [List.mem_cons, forall_eq_or_imp] at hwid ⊢
      exact ⟨h1.2.2.1 hwid.1, ih hwid.2⟩
  have hpole' : ∀ r ∈ g'.table.resonances, ¬ (r.energy = E ∧ r.eliminated = 0) := by
    have hr := h.resonances
    clear * - hr hpole
    generalize g.table.resonances = a at hr hpole
    generalize g'.table.resonances = b at hr
    induction hr with
    | nil => simp
    | cons h1 _ ih =>
      simp only [List.mem_cons, forall_eq_or_imp] at hpole ⊢
      rw [h1.1, h1.2.1]
      exact ⟨hpole.1, ih hpole.2⟩
  obtain ⟨⟨m', c'⟩, e⟩ := evaluateTMatrix_succeeds (option := option) hP' hS' (fun i => hnn _) hwid' hpole'
    (by rw [det_reordered h]; exact hdet) cache' start
  refine ⟨c', ?_⟩
  rw [e]
  congr 2
  have harrow' : ∀ c ∈ g'.channels, ¬ ContainsArrow c.id := fun c hc =>
    harrow c ((mem_reordered hch c).mp hc)
  obtain ⟨P₂, S₂, hP₂, hS₂, -, -, -, hel₂, hrest₂⟩ := evaluateTMatrix_ok hg' harrow' e
  have eP : P₂ = P ∘ σ.symm := funext fun i => Except.ok.inj ((hP₂ i).symm.trans (hP' i))
  have eS : ∀ i j, Spec.tMatrix option g'.channels g'.table.resonances E P₂ S₂ i j
      = Spec.tMatrix option g'.channels g'.table.resonances E (P ∘ σ.symm) (S ∘ σ.symm) i j := by
    intro i j
    rw [eP]
    revert hS' hS₂
    cases option with
    | shiftFactor => exact fun _ _ => rfl
    | constant =>
      intro hS' hS₂
      have : S₂ = S ∘ σ.symm := funext fun i => Except.ok.inj ((hS₂ rfl i).symm.trans (hS' rfl i))
      rw [this]
  funext key
  by_cases hk : ∃ c ∈ g.channels, ∃ c' ∈ g.channels, key = tMatrixKey c.id c'.id
  · obtain ⟨c, hc, d, hd, rfl⟩ := hk
    obtain ⟨i, hi, rfl⟩ := List.getElem_of_mem hc
    obtain ⟨j, hj, rfl⟩ := List.getElem_of_mem hd
    have h1 := hel ⟨i, hi⟩ ⟨j, hj⟩
    have h2 := hel₂ (σ ⟨i, hi⟩) (σ ⟨j, hj⟩)
    rw [hch, hch, eS, tMatrix_reordered h] at h2
    exact h2.trans h1.symm
  · push Not at hk
    rw [hrest key hk, hrest₂ key]
    intro c hc d hd
    exact hk c ((mem_reordered hch c).mp hc) d ((mem_reordered hch d).mp hd)

open Example in
/-- The example with other signs of the fission amplitudes and of the amplitudes of the second resonance: the
element between elastic scattering and fission changes its sign. -/
example (option : BoundaryOption) (lib : CoulombLibrary) (cache cache' : MatrixCache channels.length) :
    ∃ m c m' c', group.evaluateTMatrix option constants lib 2 cache (fun _ => none) = .ok (m, c) ∧
      SpinGroup.evaluateTMatrix option constants lib ⟨channels, group.reactions, group.incident,
        ⟨group.table.channels, [⟨1, [1 / 2, 1 / 3, -1 / 5], 1 / 10⟩, ⟨5, [-1 / 4, 0, 1], 0⟩]⟩⟩ 2 cache'
          (fun _ => none) = .ok (m', c') ∧
      ∃ t, m (tMatrixKey elastic.id fission.id) = some t ∧ m' (tMatrixKey elastic.id fission.id) = some (-t) := by
  obtain ⟨⟨m, c⟩, hm⟩ := (evaluates option lib cache (fun _ => none) (fun _ => none)).2
  obtain ⟨m', c', h1, h2, -⟩ := C20_signs_t_matrix (K := constants) (lib := lib) (E := 2) (option := option)
    (channels := channels) (ids := group.table.channels) (rs := resonances) group_built noArrow
    (fun c : Fin channels.length => if c.val = 2 then -1 else 1)
    (fun c => by split <;> simp)
    (rs' := [⟨1, [1 / 2, 1 / 3, -1 / 5], 1 / 10⟩, ⟨5, [-1 / 4, 0, 1], 0⟩]) (by
      refine .cons ⟨rfl, rfl, rfl, 1, Or.inl rfl, ?_⟩ (.cons ⟨rfl, rfl, rfl, -1, Or.inr rfl, ?_⟩ .nil)
      · intro c
        obtain ⟨c, hc⟩ := c
        have hc3 : c < 3 := hc
        interval_cases c <;> simp [Resonance.width]; norm_num
      · intro c
        obtain ⟨c, hc⟩ := c
        have hc3 : c < 3 := hc
        interval_cases c <;> simp [Resonance.width]; norm_num) hm cache'
  refine ⟨m, c, m', c', hm, h1, ?_⟩
  obtain ⟨t, h3, h4⟩ := h2 ⟨0, by simp [channels]⟩ ⟨2, by simp [channels]⟩
  refine ⟨t, h3, h4.trans ?_⟩
  norm_num

open Example in
/-- The example with inelastic scattering as its first channel. -/
example (option : BoundaryOption) (lib : CoulombLibrary) (cache : MatrixCache group.channels.length) :
    ∃ g' : SpinGroup, g'.Built ∧ g'.channels = [inelastic, elastic, fission] ∧
      ∀ cache', ∃ m c c', group.evaluateTMatrix option constants lib 2 cache (fun _ => none) = .ok (m, c) ∧
        g'.evaluateTMatrix option constants lib 2 cache' (fun _ => none) = .ok (m, c') := by
  have hcons := (C24_accepted _ _).mp ⟨group, group_built⟩
  have hperm : [inelastic, elastic, fission].Perm group.channels := List.Perm.swap _ _ _
  obtain ⟨g', hg'⟩ := (C24_accepted [inelastic, elastic, fission] ⟨[inelastic, elastic, fission].map Channel.id,
    [⟨1, [1 / 3, 1 / 2, 1 / 5], 1 / 10⟩, ⟨5, [0, 1 / 4, 1], 0⟩]⟩).mpr
    ⟨by simp, fun c hc d hd => hcons.sameIncident c (hperm.mem_iff.mp hc) d (hperm.mem_iff.mp hd),
      (hperm.map _).nodup_iff.mpr hcons.uniqueIDs,
      fun c hc d hd => hcons.sameJpi c (hperm.mem_iff.mp hc) d (hperm.mem_iff.mp hd),
      by
        obtain ⟨c, hc, hi⟩ := hcons.hasIncident
        exact ⟨c, hperm.mem_iff.mpr hc, hi⟩, rfl⟩
  obtain ⟨h1, h2, h3⟩ := SpinGroup.Built.of_make hg'
  refine ⟨g', h1, h2, fun cache' => ?_⟩
  obtain ⟨⟨m, c⟩, hm⟩ := (evaluates option lib cache (fun _ => none) (fun _ => none)).2
  obtain ⟨channels', reactions', incident', table'⟩ := g'
  dsimp only at h2 h3
  subst h2 h3
  obtain ⟨c', h⟩ := C20_channel_order_t_matrix group_built h1 (show Fin 3 ≃ Fin 3 from Equiv.swap 0 1) (by
    refine ⟨fun i => ?_, .cons ⟨rfl, rfl, fun _ => rfl, fun i => ?_⟩
      (.cons ⟨rfl, rfl, fun _ => rfl, fun i => ?_⟩ .nil)⟩ <;>
    · change Fin 3 at i
      fin_cases i <;> rfl) noArrow hm cache'
  exact ⟨m, c, c', hm, h⟩

end Verif
