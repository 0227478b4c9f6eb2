import Verif.Props.Parts
import Verif.Props.BoundaryChangeT

/-!
# Property C78 for the T-matrix
-/

namespace Verif

variable {option : BoundaryOption} {K : Constants} {lib : CoulombLibrary} {E : ℝ}

/-- A part of a spin group has the elements of the T-matrix of the group. -/
theorem evaluateTMatrix_part {g g₁ : SpinGroup} (hg : g.Built) (hg₁ : g₁.Built)
    (harrow : ∀ c ∈ g.channels, ¬ ContainsArrow c.id) {part : List Channel} {rs : List Resonance}
    {ρ₁ : Fin g₁.channels.length → Fin g.channels.length} {ρ₂ : Fin part.length → Fin g.channels.length}
    (h : Spec.SplitsInto E ρ₁ ρ₂ g₁.table.resonances rs g.table.resonances)
    {cache c : MatrixCache g.channels.length} {start m : Str → Option ℂ}
    (e : g.evaluateTMatrix option K lib E cache start = .ok (m, c)) (cache₁ : MatrixCache g₁.channels.length)
    (start₁ : Str → Option ℂ) :
    ∃ m₁ c₁, g₁.evaluateTMatrix option K lib E cache₁ start₁ = .ok (m₁, c₁) ∧
      (∀ a ∈ g₁.channels, ∀ b ∈ g₁.channels, m₁ (tMatrixKey a.id b.id) = m (tMatrixKey a.id b.id)) ∧
      ∀ a ∈ g₁.channels, ∀ b ∈ part, m (tMatrixKey a.id b.id) = some 0 := by
  obtain ⟨P, S, hP, hS, hnn, hwid, hdet, hel, -⟩ := evaluateTMatrix_ok hg harrow e
  have hpole := evaluateTMatrix_noPole e
  obtain ⟨hd, hT⟩ := levels_parts (option := option) (P := P) (S := S) h
  obtain ⟨hT₁, hT₂⟩ := hT hdet
  obtain ⟨rs₁', rs₂', hp, h3, -⟩ := h.resonances
  have hmem : ∀ r ∈ rs₁', r ∈ g.table.resonances := fun r hr => hp.mem_iff.mpr (List.mem_append_left _ hr)
  have hP₁ : ∀ i : Fin g₁.channels.length, g₁.channels[i].penetrability K lib E = .ok ((P ∘ ρ₁) i) := fun i => by
    rw [← h.channels₁ i]; exact hP _
  have hS₁ : option = .constant →
      ∀ i : Fin g₁.channels.length, g₁.channels[i].shiftFactor K lib E = .ok ((S ∘ ρ₁) i) := fun ho i => by
    rw [← h.channels₁ i]; exact hS ho _
  obtain ⟨⟨m₁, c₁⟩, e₁⟩ := evaluateTMatrix_succeeds (option := option) (g := g₁) hP₁ hS₁ (fun i => hnn _)
    ((widths_within h3).mp fun r hr => hwid r (hmem r hr))
    ((noPole_within h3).mp fun r hr => hpole r (hmem r hr)) (left_ne_zero_of_mul (hd ▸ hdet)) cache₁ start₁
  have harrow₁ : ∀ c ∈ g₁.channels, ¬ ContainsArrow c.id := fun c hc =>
    harrow c ((SplitsInto.mem h c).mpr (Or.inl hc))
  obtain ⟨P₁, S₁, hP₂, hS₂, -, -, -, hel₁, -⟩ := evaluateTMatrix_ok hg₁ harrow₁ e₁
  have eP : P₁ = P ∘ ρ₁ := funext fun i => Except.ok.inj ((hP₂ i).symm.trans (hP₁ i))
  have eT : Spec.tMatrix option g₁.channels g₁.table.resonances E P₁ S₁
      = Spec.tMatrix option g₁.channels g₁.table.resonances E (P ∘ ρ₁) (S ∘ ρ₁) := by
    rw [eP]
    revert hS₁ hS₂
    clear * -
    cases option with
    | shiftFactor => exact fun _ _ => rfl
    | constant =>
      intro h1 h2
      have : S₁ = S ∘ ρ₁ := funext fun i => Except.ok.inj ((h2 rfl i).symm.trans (h1 rfl i))
      rw [this]
  refine ⟨m₁, c₁, e₁, fun a ha b hb => ?_, fun a ha b hb => ?_⟩
  · obtain ⟨i, hi, rfl⟩ := List.getElem_of_mem ha
    obtain ⟨j, hj, rfl⟩ := List.getElem_of_mem hb
    have k1 := hel₁ ⟨i, hi⟩ ⟨j, hj⟩
    have k2 := hel (ρ₁ ⟨i, hi⟩) (ρ₁ ⟨j, hj⟩)
    rw [h.channels₁, h.channels₁, hT₁, ← eT] at k2
    exact k1.trans k2.symm
  · obtain ⟨i, hi, rfl⟩ := List.getElem_of_mem ha
    obtain ⟨j, hj, rfl⟩ := List.getElem_of_mem hb
    have k2 := hel (ρ₁ ⟨i, hi⟩) (ρ₂ ⟨j, hj⟩)
    rw [h.channels₁, h.channels₂, hT₂] at k2
    exact k2

/-- C78 for the T-matrix: a spin group of two independent parts has a T-matrix if and only if both parts have
one. Its elements between channels of a part are those of the part, and those between the parts are zero. -/
theorem C78_t_matrix {g g₁ g₂ : SpinGroup} (hg : g.Built) (hg₁ : g₁.Built) (hg₂ : g₂.Built)
    (harrow : ∀ c ∈ g.channels, ¬ ContainsArrow c.id)
    {ρ₁ : Fin g₁.channels.length → Fin g.channels.length} {ρ₂ : Fin g₂.channels.length → Fin g.channels.length}
    (h : Spec.SplitsInto E ρ₁ ρ₂ g₁.table.resonances g₂.table.resonances g.table.resonances)
    (cache : MatrixCache g.channels.length) (cache₁ : MatrixCache g₁.channels.length)
    (cache₂ : MatrixCache g₂.channels.length) (start start₁ start₂ : Str → Option ℂ) :
    ((∃ v, g.evaluateTMatrix option K lib E cache start = .ok v) ↔
      (∃ v, g₁.evaluateTMatrix option K lib E cache₁ start₁ = .ok v) ∧
        ∃ v, g₂.evaluateTMatrix option K lib E cache₂ start₂ = .ok v) ∧
    ∀ m c m₁ c₁ m₂ c₂, g.evaluateTMatrix option K lib E cache start = .ok (m, c) →
      g₁.evaluateTMatrix option K lib E cache₁ start₁ = .ok (m₁, c₁) →
      g₂.evaluateTMatrix option K lib E cache₂ start₂ = .ok (m₂, c₂) →
      (∀ a ∈ g₁.channels, ∀ b ∈ g₁.channels, m (tMatrixKey a.id b.id) = m₁ (tMatrixKey a.id b.id)) ∧
      (∀ a ∈ g₂.channels, ∀ b ∈ g₂.channels, m (tMatrixKey a.id b.id) = m₂ (tMatrixKey a.id b.id)) ∧
      ∀ a ∈ g₁.channels, ∀ b ∈ g₂.channels,
        m (tMatrixKey a.id b.id) = some 0 ∧ m (tMatrixKey b.id a.id) = some 0 := by
  have hs := SplitsInto.symm h
  refine ⟨⟨?_, ?_⟩, ?_⟩
  · rintro ⟨⟨m, c⟩, e⟩
    obtain ⟨m₁, c₁, e₁, -⟩ := evaluateTMatrix_part hg hg₁ harrow h e cache₁ start₁
    obtain ⟨m₂, c₂, e₂, -⟩ := evaluateTMatrix_part hg hg₂ harrow hs e cache₂ start₂
    exact ⟨⟨_, e₁⟩, ⟨_, e₂⟩⟩
  · rintro ⟨⟨⟨m₁, c₁⟩, e₁⟩, ⟨⟨m₂, c₂⟩, e₂⟩⟩
    have hmem := SplitsInto.mem h
    obtain ⟨P₁, S₁, hP₁, hS₁, hnn₁, hwid₁, hdet₁, -⟩ :=
      evaluateTMatrix_ok hg₁ (fun c hc => harrow c ((hmem c).mpr (Or.inl hc))) e₁
    obtain ⟨P₂, S₂, hP₂, hS₂, hnn₂, hwid₂, hdet₂, -⟩ :=
      evaluateTMatrix_ok hg₂ (fun c hc => harrow c ((hmem c).mpr (Or.inr hc))) e₂
    have hext : ∀ (f₁ : Fin g₁.channels.length → ℝ) (f₂ : Fin g₂.channels.length → ℝ),
        ∃ f : Fin g.channels.length → ℝ, f ∘ ρ₁ = f₁ ∧ f ∘ ρ₂ = f₂ := by
      intro f₁ f₂
      refine ⟨fun j => Sum.elim f₁ f₂ ((Equiv.ofBijective _ h.bijective).symm j), ?_, ?_⟩
      · funext i
        have : (Equiv.ofBijective _ h.bijective).symm (ρ₁ i) = Sum.inl i :=
          (Equiv.symm_apply_eq _).mpr rfl
        rw [Function.comp_apply, this, Sum.elim_inl]
      · funext i
        have : (Equiv.ofBijective _ h.bijective).symm (ρ₂ i) = Sum.inr i :=
          (Equiv.symm_apply_eq _).mpr rfl
        rw [Function.comp_apply, this, Sum.elim_inr]
    obtain ⟨P, rfl, rfl⟩ := hext P₁ P₂
    obtain ⟨S, rfl, rfl⟩ := hext S₁ S₂
    have hall : ∀ {p : Fin g.channels.length → Prop}, (∀ i, p (ρ₁ i)) → (∀ j, p (ρ₂ j)) → ∀ j, p j := by
      intro p h1 h2 j
      rcases SplitsInto.cover h j with ⟨i, rfl⟩ | ⟨i, rfl⟩
      · exact h1 i
      · exact h2 i
    obtain ⟨rs₁', rs₂', hp, h3, h4⟩ := h.resonances
    have hres : ∀ {p : Resonance → Prop}, (∀ r ∈ rs₁', p r) → (∀ r ∈ rs₂', p r) →
        ∀ r ∈ g.table.resonances, p r := fun h1 h2 r hr =>
      (List.mem_append.mp (hp.mem_iff.mp hr)).elim (h1 r) (h2 r)
    refine evaluateTMatrix_succeeds (option := option) (g := g) (P := P) (S := S)
      (hall (fun i => ?_) fun i => ?_) (fun ho => hall (fun i => ?_) fun i => ?_) (hall hnn₁ hnn₂)
      (hres ((widths_within h3).mpr hwid₁) ((widths_within h4).mpr hwid₂))
      (hres ((noPole_within h3).mpr (evaluateTMatrix_noPole e₁))
        ((noPole_within h4).mpr (evaluateTMatrix_noPole e₂))) ?_ cache start
    · rw [h.channels₁ i]; exact hP₁ i
    · rw [h.channels₂ i]; exact hP₂ i
    · rw [h.channels₁ i]; exact hS₁ ho i
    · rw [h.channels₂ i]; exact hS₂ ho i
    · rw [(levels_parts h).1]
      exact mul_ne_zero hdet₁ hdet₂
  · intro m c m₁ c₁ m₂ c₂ e e₁ e₂
    obtain ⟨n₁, d₁, f₁, k1, k2⟩ := evaluateTMatrix_part hg hg₁ harrow h e cache₁ start₁
    obtain ⟨n₂, d₂, f₂, k3, k4⟩ := evaluateTMatrix_part hg hg₂ harrow hs e cache₂ start₂
    obtain ⟨rfl, rfl⟩ := Prod.mk.inj (Except.ok.inj (f₁.symm.trans e₁))
    obtain ⟨rfl, rfl⟩ := Prod.mk.inj (Except.ok.inj (f₂.symm.trans e₂))
    exact ⟨fun a ha b hb => (k1 a ha b hb).symm, fun a ha b hb => (k3 a ha b hb).symm,
      fun a ha b hb => ⟨k2 a ha b hb, k4 b hb a ha⟩⟩

namespace Example

/-- The spin group of both channel spins has a T-matrix at energy 2, in which they are not coupled. -/
example (option : BoundaryOption) (lib : CoulombLibrary) :
    ∃ g : SpinGroup, g.Built ∧ g.channels = [triplet, singlet] ∧ ∀ cache, ∃ m c,
      g.evaluateTMatrix option constants lib 2 cache (fun _ => none) = .ok (m, c) ∧
        m (tMatrixKey singlet.id triplet.id) = some 0 ∧ m (tMatrixKey triplet.id singlet.id) = some 0 := by
  have one : ∀ (c : Channel) (rs : List Resonance), c.pair.id = c.incident.id →
      Spec.ConsistentGroup [c] ⟨[c.id], rs⟩ := by
    intro c rs hc
    refine ⟨by simp, ?_, by simp, ?_, ⟨c, by simp, hc⟩, rfl⟩
    · intro a ha b hb
      rw [List.mem_singleton.mp ha, List.mem_singleton.mp hb]
    · intro a ha b hb
      rw [List.mem_singleton.mp ha, List.mem_singleton.mp hb]
      exact ⟨rfl, rfl⟩
  have both : Spec.ConsistentGroup [triplet, singlet] ⟨[triplet.id, singlet.id],
      [⟨1, [0, 1 / 2], 1 / 10⟩, ⟨5, [1 / 3, 0], 1 / 5⟩, ⟨7, [0, 2], 0⟩]⟩ := by
    refine ⟨by simp, ?_, ?_, ?_, ⟨triplet, by simp, rfl⟩, rfl⟩
    · intro c hc d hd
      simp only [List.mem_cons, List.not_mem_nil, or_false] at hc hd
      rcases hc with rfl | rfl <;> rcases hd with rfl | rfl <;> rfl
    · simpa using singlet_ne_triplet.symm
    · intro c hc d hd
      simp only [List.mem_cons, List.not_mem_nil, or_false] at hc hd
      rcases hc with rfl | rfl <;> rcases hd with rfl | rfl <;> exact ⟨rfl, rfl⟩
  obtain ⟨g, hg⟩ := (C24_accepted _ _).mpr both
  obtain ⟨g₁, hg₁⟩ := (C24_accepted _ _).mpr (one singlet [⟨1, [1 / 2], 1 / 10⟩, ⟨7, [2], 0⟩] rfl)
  obtain ⟨g₂, hg₂⟩ := (C24_accepted _ _).mpr (one triplet [⟨5, [1 / 3], 1 / 5⟩] rfl)
  obtain ⟨hb, h1, h2⟩ := SpinGroup.Built.of_make hg
  obtain ⟨hb₁, h1₁, h2₁⟩ := SpinGroup.Built.of_make hg₁
  obtain ⟨hb₂, h1₂, h2₂⟩ := SpinGroup.Built.of_make hg₂
  refine ⟨g, hb, h1, fun cache => ?_⟩
  obtain ⟨channels, r, i, t⟩ := g
  obtain ⟨channels₁, r₁, i₁, t₁⟩ := g₁
  obtain ⟨channels₂, r₂, i₂, t₂⟩ := g₂
  simp only at h1 h2 h1₁ h2₁ h1₂ h2₂
  subst h1 h2 h1₁ h2₁ h1₂ h2₂
  have harrow : ∀ c ∈ [triplet, singlet], ¬ ContainsArrow c.id := by
    have p1 : Physical ⟨1, 0, 1, -1⟩ := ⟨⟨0, by norm_num⟩, ⟨2, by norm_num⟩⟩
    have p2 : Physical ⟨1, 1, 1, -1⟩ := ⟨⟨2, by norm_num⟩, ⟨2, by norm_num⟩⟩
    intro c hc
    simp only [List.mem_cons, List.not_mem_nil, or_false] at hc
    rcases hc with rfl | rfl
    · exact not_containsArrow_channelID _ _ p2 (by unfold ContainsArrow; decide)
    · exact not_containsArrow_channelID _ _ p1 (by unfold ContainsArrow; decide)
  have hn : ∀ c ∈ [triplet, singlet], NeutralAt 2 c := by
    intro c hc
    simp only [List.mem_cons, List.not_mem_nil, or_false] at hc
    rcases hc with rfl | rfl
    · exact ⟨by decide, fun _ => by decide, fun _ => by norm_num [triplet, makeChannel, spinPair],
        by norm_num [triplet, makeChannel, spinPair], ⟨1, one_pos, rfl⟩, ⟨1, rfl⟩, ⟨1, rfl⟩⟩
    · exact ⟨by decide, fun _ => by decide, fun _ => by norm_num [singlet, makeChannel, spinPair],
        by norm_num [singlet, makeChannel, spinPair], ⟨1, one_pos, rfl⟩, ⟨1, rfl⟩, ⟨1, rfl⟩⟩
  obtain ⟨⟨m, c⟩, e⟩ := (C19_neutral_channels (option := option) (K := constants) (lib := lib) hb hn
    (by simp) (by norm_num) cache (fun _ => none) (fun _ => none)).2
  obtain ⟨-, -, -, -, k⟩ := evaluateTMatrix_part hb hb₁ harrow (splits 2) e ⟨0, 0, 0⟩ fun _ => none
  obtain ⟨-, -, -, -, k'⟩ := evaluateTMatrix_part hb hb₂ harrow (SplitsInto.symm (splits 2)) e
    ⟨0, 0, 0⟩ fun _ => none
  exact ⟨m, c, e, k _ (by simp) _ (by simp), k' _ (by simp) _ (by simp)⟩

end Example

end Verif
