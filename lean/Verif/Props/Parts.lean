import Verif.Lemmas.Parts
import Verif.Props.LowEnergy

/-!
# Property C78: a spin group of independent parts has the sum of their cross sections
-/

namespace Verif

open Complex Matrix

variable {option : BoundaryOption} {K : Constants} {lib : CoulombLibrary} {E : ℝ}

theorem part_capture {g g₁ : SpinGroup} (hg : g.Built) (hg₁ : g₁.Built)
    (hsub : ∀ c ∈ g₁.channels, c ∈ g.channels) :
    Spec.captureID g.channels = Spec.captureID g₁.channels ∧
    ∀ id, id ∈ g₁.reactions ↔ id ∈ g₁.channels.map Channel.reaction ∨ Spec.captureID g.channels = some id := by
  obtain ⟨-, first, rest, h2, h3, -⟩ := hg.incident
  obtain ⟨-, first', rest', h2', h3', -⟩ := hg₁.incident
  have hfirst : first'.incident.id = first.incident.id :=
    ((C24_accepted _ _).mp ⟨g, hg⟩).sameIncident _ (hsub _ (by rw [h2']; simp)) _ (by rw [h2]; simp)
  refine ⟨by rw [captureID_eq h2, captureID_eq h2', hfirst], fun id => ?_⟩
  rw [h3', captureID_eq h2, hfirst, List.mem_append, List.mem_singleton, Option.some.injEq]
  exact or_congr Iff.rfl ⟨Eq.symm, Eq.symm⟩

/-- C78: if the channels and resonances of a spin group are those of two others, and no resonance has widths
in open channels of both, then evaluating the group has the same effect as evaluating the two one after the
other: it succeeds if and only if they do, and gives the same map. The incident channels have to agree on wave
number and spin factor, of which the code takes those of the first one. -/
theorem C78_independent_parts {g g₁ g₂ : SpinGroup} (hg : g.Built) (hg₁ : g₁.Built) (hg₂ : g₂.Built)
    {ρ₁ : Fin g₁.channels.length → Fin g.channels.length} {ρ₂ : Fin g₂.channels.length → Fin g.channels.length}
    (h : Spec.SplitsInto E ρ₁ ρ₂ g₁.table.resonances g₂.table.resonances g.table.resonances)
    (hsame : SameIncident K E g.channels) (cache : MatrixCache g.channels.length)
    (cache₁ : MatrixCache g₁.channels.length) (cache₂ : MatrixCache g₂.channels.length)
    (start m : CrossSectionMap) :
    (∃ c, g.evaluate option K lib E cache start = .ok (m, c)) ↔
      ∃ m₁ c₁ c₂, g₁.evaluate option K lib E cache₁ start = .ok (m₁, c₁) ∧
        g₂.evaluate option K lib E cache₂ m₁ = .ok (m, c₂) := by
  have hmem := SplitsInto.mem h
  obtain ⟨hcap₁, hr₁⟩ := part_capture hg hg₁ fun c hc => (hmem c).mpr (Or.inl hc)
  obtain ⟨hcap₂, hr₂⟩ := part_capture hg hg₂ fun c hc => (hmem c).mpr (Or.inr hc)
  obtain ⟨-, hr⟩ := part_capture hg hg fun c hc => hc
  have hrr : ∀ id, id ∈ g.reactions ↔ id ∈ g₁.reactions ∨ id ∈ g₂.reactions := by
    intro id
    rw [hr, hr₁, hr₂]
    simp only [List.mem_map, hmem]
    constructor
    · rintro (⟨c, hc | hc, rfl⟩ | h2)
      · exact Or.inl (Or.inl ⟨c, hc, rfl⟩)
      · exact Or.inr (Or.inl ⟨c, hc, rfl⟩)
      · exact Or.inl (Or.inr h2)
    · rintro ((⟨c, hc, rfl⟩ | h2) | (⟨c, hc, rfl⟩ | h2))
      · exact Or.inl ⟨c, Or.inl hc, rfl⟩
      · exact Or.inr h2
      · exact Or.inl ⟨c, Or.inr hc, rfl⟩
      · exact Or.inr h2
  -- what the three calls return, if they return
  have key : ∀ {P S w phi}, Spec.Evaluable option K lib g.channels g.table.resonances E P S w phi →
      ∀ {m₁ m₂ m' c₁ c₂ c}, g₁.evaluate option K lib E cache₁ start = .ok (m₁, c₁) →
        g₂.evaluate option K lib E cache₂ m₁ = .ok (m₂, c₂) →
        g.evaluate option K lib E cache start = .ok (m', c) → m' = m₂ := by
    intro P S w phi hev m₁ m₂ m' c₁ c₂ c e1 e2 e
    obtain ⟨P', S', w', phi', hev', hres⟩ := evaluate_ok hg e
    obtain ⟨P₁, S₁, w₁, phi₁, hev₁, hres₁⟩ := evaluate_ok hg₁ e1
    obtain ⟨P₂, S₂, w₂, phi₂, hev₂, hres₂⟩ := evaluate_ok hg₂ e2
    have hi₁ : ∃ c ∈ g₁.channels, c.isIncident := by
      obtain ⟨c, hc, -⟩ := hev₁.waveNumber
      exact ⟨c, List.mem_of_find?_eq_some hc, List.find?_some hc⟩
    have hi₂ : ∃ c ∈ g₂.channels, c.isIncident := by
      obtain ⟨c, hc, -⟩ := hev₂.waveNumber
      exact ⟨c, List.mem_of_find?_eq_some hc, List.find?_some hc⟩
    have q1 := Evaluable_part h hsame hi₁ hev
    have q2 := Evaluable_part (SplitsInto.symm h) hsame hi₂ hev
    have hcon : ∀ id, Spec.contribution option K g.channels g.table.resonances E P' S' w' phi' id
        = Spec.contribution option K g₁.channels g₁.table.resonances E P₁ S₁ w₁ phi₁ id
          + Spec.contribution option K g₂.channels g₂.table.resonances E P₂ S₂ w₂ phi₂ id := by
      intro id
      rw [← Evaluable_contribution hev hev' id, contribution_parts h hsame hev.invertible hcap₁ hcap₂ id,
        Evaluable_contribution q1 hev₁ id, Evaluable_contribution q2 hev₂ id]
    funext id
    rw [hres id, hres₂ id, hres₁ id, hcon id]
    by_cases k1 : id ∈ g₁.reactions <;> by_cases k2 : id ∈ g₂.reactions
    · simp only [hrr, k1, k2, or_self, if_true, Option.getD_some, add_assoc]
    · simp only [hrr, k1, k2, or_false, if_true, if_false, contribution_absent hg₂ k2, add_zero]
    · simp only [hrr, k1, k2, or_true, if_true, if_false, contribution_absent hg₁ k1, zero_add]
    · simp only [hrr, k1, k2, or_self, if_false]
  have hinc : ∀ {g' : SpinGroup}, g'.Built → ∃ c ∈ g'.channels, c.isIncident := by
    intro g' hb
    obtain ⟨c, hc, hci⟩ := ((C24_accepted _ _).mp ⟨g', hb⟩).hasIncident
    exact ⟨c, hc, by simpa [Channel.isIncident] using hci⟩
  constructor
  · rintro ⟨c, e⟩
    obtain ⟨P, S, w, phi, hev, -⟩ := evaluate_ok hg e
    have q1 := Evaluable_part h hsame (hinc hg₁) hev
    have q2 := Evaluable_part (SplitsInto.symm h) hsame (hinc hg₂) hev
    obtain ⟨⟨m₁, c₁⟩, e1⟩ := evaluate_ok_of hg₁ q1 cache₁ start
    obtain ⟨⟨m₂, c₂⟩, e2⟩ := evaluate_ok_of hg₂ q2 cache₂ m₁
    obtain rfl := key hev e1 e2 e
    exact ⟨m₁, c₁, c₂, e1, e2⟩
  · rintro ⟨m₁, c₁, c₂, e1, e2⟩
    obtain ⟨P₁, S₁, w₁, phi₁, hev₁, -⟩ := evaluate_ok hg₁ e1
    obtain ⟨P₂, S₂, w₂, phi₂, hev₂, -⟩ := evaluate_ok hg₂ e2
    have hext : ∀ (f₁ : Fin g₁.channels.length → ℝ) (f₂ : Fin g₂.channels.length → ℝ),
        ∃ f : Fin g.channels.length → ℝ, f ∘ ρ₁ = f₁ ∧ f ∘ ρ₂ = f₂ := by
      intro f₁ f₂
      refine ⟨fun j => Sum.elim f₁ f₂ ((Equiv.ofBijective _ h.bijective).symm j), ?_, ?_⟩
      · funext i
        have : (Equiv.ofBijective _ h.bijective).symm (ρ₁ i) = Sum.inl i :=
          (Equiv.symm_apply_eq _).mpr rfl
        rw [Function.comp_apply, this, Sum.elim_inl]
      · funext i
        have : (Equiv.ofBijective _ h.bijective).symm (ρ₂ i) = Sum.inr i :=
          (Equiv.symm_apply_eq _).mpr rfl
        rw [Function.comp_apply, this, Sum.elim_inr]
    obtain ⟨P, rfl, rfl⟩ := hext P₁ P₂
    obtain ⟨S, rfl, rfl⟩ := hext S₁ S₂
    obtain ⟨w, rfl, rfl⟩ := hext w₁ w₂
    obtain ⟨phi, rfl, rfl⟩ := hext phi₁ phi₂
    have hev := Evaluable_parts h hsame hev₁ hev₂
    obtain ⟨⟨m', c⟩, e⟩ := evaluate_ok_of hg hev cache start
    obtain rfl := key hev e1 e2 e
    exact ⟨c, e⟩

/-- C78: a part without incident channels, whatever its resonances, adds nothing to the cross sections. -/
theorem C78_part_without_incident_channels {g g₁ : SpinGroup} (hg : g.Built) (hg₁ : g₁.Built)
    {part : List Channel} {rs : List Resonance} {ρ₁ : Fin g₁.channels.length → Fin g.channels.length}
    {ρ₂ : Fin part.length → Fin g.channels.length}
    (h : Spec.SplitsInto E ρ₁ ρ₂ g₁.table.resonances rs g.table.resonances)
    (hno : ∀ c ∈ part, c.isIncident = false) (hsame : SameIncident K E g.channels)
    {cache cache' : MatrixCache g.channels.length} (cache₁ : MatrixCache g₁.channels.length)
    {start m : CrossSectionMap} (hok : g.evaluate option K lib E cache start = .ok (m, cache')) :
    ∃ m₁ c₁, g₁.evaluate option K lib E cache₁ start = .ok (m₁, c₁) ∧ ∀ id, (m id).getD 0 = (m₁ id).getD 0 := by
  have hmem := SplitsInto.mem h
  obtain ⟨hcap, hr₁⟩ := part_capture hg hg₁ fun c hc => (hmem c).mpr (Or.inl hc)
  obtain ⟨-, hr⟩ := part_capture hg hg fun c hc => hc
  obtain ⟨P, S, w, phi, hev, hres⟩ := evaluate_ok hg hok
  obtain ⟨c, hc, hci⟩ := ((C24_accepted _ _).mp ⟨g₁, hg₁⟩).hasIncident
  have q1 := Evaluable_part h hsame ⟨c, hc, by simpa [Channel.isIncident] using hci⟩ hev
  obtain ⟨⟨m₁, c₁⟩, e1⟩ := evaluate_ok_of hg₁ q1 cache₁ start
  obtain ⟨P₁, S₁, w₁, phi₁, hev₁, hres₁⟩ := evaluate_ok hg₁ e1
  refine ⟨m₁, c₁, e1, fun id => ?_⟩
  rw [hres id, hres₁ id, contribution_no_incident h hsame hev.invertible hcap hno id,
    Evaluable_contribution q1 hev₁ id]
  by_cases k1 : id ∈ g₁.reactions
  · have : id ∈ g.reactions := by
      rw [hr]
      rw [hr₁] at k1
      refine k1.imp (fun h2 => ?_) fun h2 => h2
      obtain ⟨c, hc, rfl⟩ := List.mem_map.mp h2
      exact List.mem_map.mpr ⟨c, (hmem c).mpr (Or.inl hc), rfl⟩
    rw [if_pos k1, if_pos this]
  · rw [if_neg k1, contribution_absent hg₁ k1]
    split <;> simp

namespace Example

/-- A target with spin one half: two channel spins couple to the same J and parity. -/
noncomputable def spinTarget : Particle := ⟨"T".toList, 1, 10, 1 / 2, 1⟩
noncomputable def spinPair : ParticlePair := ⟨neutron, spinTarget, "n,T".toList, 1 / 2, 1 / 2⟩

noncomputable def singlet : Channel :=
  makeChannel .neutron spinPair spinPair spinPair.id 0 ⟨1, 0, 1, -1⟩ radii 0
noncomputable def triplet : Channel :=
  makeChannel .neutron spinPair spinPair spinPair.id 0 ⟨1, 1, 1, -1⟩ radii 0

theorem singlet_ne_triplet : singlet.id ≠ triplet.id := by
  have p1 : Physical ⟨1, 0, 1, -1⟩ := ⟨⟨0, by norm_num⟩, ⟨2, by norm_num⟩⟩
  have p2 : Physical ⟨1, 1, 1, -1⟩ := ⟨⟨2, by norm_num⟩, ⟨2, by norm_num⟩⟩
  intro h
  have := ((C07_channelID_injective _ _ _ _ p1 p2).mp h).2
  simp at this

/-- Channels and resonances of two channel spins that no resonance couples. -/
theorem splits (E : ℝ) : Spec.SplitsInto E (part₁ := [singlet]) (part₂ := [triplet])
    (channels := [triplet, singlet]) (fun _ => ⟨1, by decide⟩) (fun _ => ⟨0, by decide⟩)
    [⟨1, [1 / 2], 1 / 10⟩, ⟨7, [2], 0⟩] [⟨5, [1 / 3], 1 / 5⟩]
    [⟨1, [0, 1 / 2], 1 / 10⟩, ⟨5, [1 / 3, 0], 1 / 5⟩, ⟨7, [0, 2], 0⟩] := by
  have one : ∀ {c : Channel} (i : Fin [c].length), i = ⟨0, by simp⟩ := by
    rintro c ⟨i, hi⟩
    have : i < 1 := hi
    exact Fin.ext (by simpa using this)
  have other : ∀ {c : Channel} {k : Fin [triplet, singlet].length} (j : Fin [triplet, singlet].length),
      j ∉ Set.range (fun _ : Fin [c].length => k) → j ≠ k := by
    rintro c k j h rfl
    exact h ⟨⟨0, by simp⟩, rfl⟩
  refine ⟨⟨?_, ?_⟩, fun i => by rw [one i]; rfl, fun i => by rw [one i]; rfl, [⟨1, [0, 1 / 2], 1 / 10⟩, ⟨7, [0, 2], 0⟩],
    [⟨5, [1 / 3, 0], 1 / 5⟩], ?_, .cons ⟨rfl, rfl, ?_, ?_, ?_⟩ (.cons ⟨rfl, rfl, ?_, ?_, ?_⟩ .nil),
    .cons ⟨rfl, rfl, ?_, ?_, ?_⟩ .nil⟩
  · rintro (a | a) (b | b) h
    · rw [one a, one b]
    · cases h
    · cases h
    · rw [one a, one b]
  · rintro ⟨j, hj⟩
    have hj2 : j < 2 := hj
    interval_cases j
    · exact ⟨Sum.inr ⟨0, by decide⟩, rfl⟩
    · exact ⟨Sum.inl ⟨0, by decide⟩, rfl⟩
  · exact List.Perm.cons _ (List.Perm.swap _ _ _)
  · exact ⟨fun _ => rfl, fun _ => rfl⟩
  · intro i; rw [one i]; rfl
  · rintro ⟨j, hj⟩ h
    have hj2 : j < 2 := hj
    interval_cases j
    · exact Or.inr rfl
    · exact absurd rfl (other _ h)
  · exact ⟨fun _ => rfl, fun _ => rfl⟩
  · intro i; rw [one i]; rfl
  · rintro ⟨j, hj⟩ h
    have hj2 : j < 2 := hj
    interval_cases j
    · exact Or.inr rfl
    · exact absurd rfl (other _ h)
  · exact ⟨fun _ => rfl, fun _ => rfl⟩
  · intro i; rw [one i]; rfl
  · rintro ⟨j, hj⟩ h
    have hj2 : j < 2 := hj
    interval_cases j
    · exact absurd rfl (other _ h)
    · exact Or.inr rfl

theorem splits_same (E : ℝ) : SameIncident constants E [triplet, singlet] := by
  intro c hc d hd _ _
  simp only [List.mem_cons, List.not_mem_nil, or_false] at hc hd
  rcases hc with rfl | rfl <;> rcases hd with rfl | rfl <;> exact ⟨rfl, rfl⟩

/-- C78 applies to three spin groups: both channel spins, and each of them. -/
example (option : BoundaryOption) (lib : CoulombLibrary) (E : ℝ) :
    ∃ g g₁ g₂ : SpinGroup, g.Built ∧ g₁.Built ∧ g₂.Built ∧ g.channels = [triplet, singlet] ∧
      g₁.channels = [singlet] ∧ g₂.channels = [triplet] ∧
      ∀ cache cache₁ cache₂ start m,
        (∃ c, g.evaluate option constants lib E cache start = .ok (m, c)) ↔
          ∃ m₁ c₁ c₂, g₁.evaluate option constants lib E cache₁ start = .ok (m₁, c₁) ∧
            g₂.evaluate option constants lib E cache₂ m₁ = .ok (m, c₂) := by
  have one : ∀ (c : Channel) (rs : List Resonance), c.pair.id = c.incident.id →
      Spec.ConsistentGroup [c] ⟨[c.id], rs⟩ := by
    intro c rs hc
    refine ⟨by simp, ?_, by simp, ?_, ⟨c, by simp, hc⟩, rfl⟩
    · intro a ha b hb
      rw [List.mem_singleton.mp ha, List.mem_singleton.mp hb]
    · intro a ha b hb
      rw [List.mem_singleton.mp ha, List.mem_singleton.mp hb]
      exact ⟨rfl, rfl⟩
  have both : Spec.ConsistentGroup [triplet, singlet] ⟨[triplet.id, singlet.id],
      [⟨1, [0, 1 / 2], 1 / 10⟩, ⟨5, [1 / 3, 0], 1 / 5⟩, ⟨7, [0, 2], 0⟩]⟩ := by
    refine ⟨by simp, ?_, ?_, ?_, ⟨triplet, by simp, rfl⟩, rfl⟩
    · intro c hc d hd
      simp only [List.mem_cons, List.not_mem_nil, or_false] at hc hd
      rcases hc with rfl | rfl <;> rcases hd with rfl | rfl <;> rfl
    · simpa using singlet_ne_triplet.symm
    · intro c hc d hd
      simp only [List.mem_cons, List.not_mem_nil, or_false] at hc hd
      rcases hc with rfl | rfl <;> rcases hd with rfl | rfl <;> exact ⟨rfl, rfl⟩
  obtain ⟨g, hg⟩ := (C24_accepted _ _).mpr both
  obtain ⟨g₁, hg₁⟩ := (C24_accepted _ _).mpr (one singlet [⟨1, [1 / 2], 1 / 10⟩, ⟨7, [2], 0⟩] rfl)
  obtain ⟨g₂, hg₂⟩ := (C24_accepted _ _).mpr (one triplet [⟨5, [1 / 3], 1 / 5⟩] rfl)
  obtain ⟨hb, h1, h2⟩ := SpinGroup.Built.of_make hg
  obtain ⟨hb₁, h1₁, h2₁⟩ := SpinGroup.Built.of_make hg₁
  obtain ⟨hb₂, h1₂, h2₂⟩ := SpinGroup.Built.of_make hg₂
  refine ⟨g, g₁, g₂, hb, hb₁, hb₂, h1, h1₁, h1₂, fun cache cache₁ cache₂ start m => ?_⟩
  obtain ⟨channels, r, i, t⟩ := g
  obtain ⟨channels₁, r₁, i₁, t₁⟩ := g₁
  obtain ⟨channels₂, r₂, i₂, t₂⟩ := g₂
  simp only at h1 h2 h1₁ h2₁ h1₂ h2₂
  subst h1 h2 h1₁ h2₁ h1₂ h2₂
  exact C78_independent_parts hb hb₁ hb₂ (splits E) (splits_same E) cache cache₁ cache₂ start m

end Example

end Verif
