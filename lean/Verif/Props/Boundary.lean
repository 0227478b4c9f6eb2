import Verif.Props.SpinGroup
import Verif.Lemmas.System

/-!
# Property C79: the two kinds of boundary conditions agree where both give the same numbers
-/

namespace Verif

open Complex Matrix

variable {K : Constants} {lib : CoulombLibrary} {E : ℝ}

theorem levelDenominator_boundary {channels : List Channel} {rs : List Resonance}
    {P S S' : Fin channels.length → ℝ}
    (h : ∀ i : Fin channels.length, channels[i].belowThreshold E ∨ S i = channels[i].boundary) :
    Spec.levelDenominator .constant channels rs E P S = Spec.levelDenominator .shiftFactor channels rs E P S' := by
  unfold Spec.levelDenominator
  congr 1
  ext i j
  rw [Matrix.mul_diagonal, Matrix.mul_diagonal]
  rcases h j with h1 | h1
  · have : Spec.rMatrix channels rs E i j = 0 := by
      rw [← rMatrix_transpose, Matrix.transpose_apply]
      exact rMatrix_closed channels E rs j h1 i
    rw [this, zero_mul, zero_mul]
  · simp [Spec.logDerivative, h1]

theorem contribution_boundary {channels : List Channel} {rs : List Resonance}
    {P S S' w phi : Fin channels.length → ℝ}
    (h : ∀ i : Fin channels.length, channels[i].belowThreshold E ∨ S i = channels[i].boundary)
    (id : ReactionID) :
    Spec.contribution .constant K channels rs E P S w phi id
      = Spec.contribution .shiftFactor K channels rs E P S' w phi id := by
  have hT : Spec.tMatrix .constant channels rs E P S = Spec.tMatrix .shiftFactor channels rs E P S' := by
    unfold Spec.tMatrix
    rw [levelDenominator_boundary h]
  unfold Spec.contribution
  rw [hT]

/-- C79: at an energy at which the boundary condition of every open channel is its shift factor, it makes no
difference whether the boundary conditions or the shift factors are used: the evaluations of a spin group add
the same to all cross sections. (Both kinds need the penetrabilities and phase shifts of all channels; only
the constant boundary conditions need the shift factors of closed channels as well.) -/
theorem C79_spin_group {g : SpinGroup} (hg : g.Built)
    (h : ∀ c ∈ g.channels, ∃ s, c.shiftFactor K lib E = .ok s ∧ (c.belowThreshold E ∨ s = c.boundary))
    (cache cache' : MatrixCache g.channels.length) (start m : CrossSectionMap) :
    (∃ c, g.evaluate .constant K lib E cache start = .ok (m, c)) ↔
      ∃ c, g.evaluate .shiftFactor K lib E cache' start = .ok (m, c) := by
  choose S hS hb using fun i : Fin g.channels.length => h g.channels[i] (List.getElem_mem _)
  constructor
  · rintro ⟨c, e⟩
    obtain ⟨P, S', w, phi, hev, hres⟩ := evaluate_ok hg e
    have hSS : S' = S := by
      funext i
      have := hev.shiftFactor rfl i
      rw [hS i] at this
      exact (Except.ok.inj this).symm
    subst hSS
    have hev' : Spec.Evaluable .shiftFactor K lib g.channels g.table.resonances E P S' w phi := by
      refine ⟨hev.penetrability, (fun h => nomatch h), hev.coulomb, hev.phase, hev.nonneg, hev.widths,
        hev.noPole, ?_, hev.waveNumber⟩
      rw [← levelDenominator_boundary hb]
      exact hev.invertible
    obtain ⟨⟨m', c'⟩, e'⟩ := evaluate_ok_of hg hev' cache' start
    obtain ⟨P₂, S₂, w₂, phi₂, hev₂, hres'⟩ := evaluate_ok hg e'
    refine ⟨c', ?_⟩
    rw [e']
    congr 2
    funext id
    rw [hres, hres', contribution_boundary hb id, Evaluable_contribution hev' hev₂ id]
  · rintro ⟨c, e⟩
    obtain ⟨P, S', w, phi, hev, hres⟩ := evaluate_ok hg e
    have hev' : Spec.Evaluable .constant K lib g.channels g.table.resonances E P S w phi := by
      refine ⟨hev.penetrability, fun _ => hS, hev.coulomb, hev.phase, hev.nonneg, hev.widths,
        hev.noPole, ?_, hev.waveNumber⟩
      rw [levelDenominator_boundary (S' := S') hb]
      exact hev.invertible
    obtain ⟨⟨m', c'⟩, e'⟩ := evaluate_ok_of hg hev' cache start
    obtain ⟨P₂, S₂, w₂, phi₂, hev₂, hres'⟩ := evaluate_ok hg e'
    refine ⟨c', ?_⟩
    rw [e']
    congr 2
    funext id
    rw [hres, hres', ← Evaluable_contribution hev' hev₂ id, contribution_boundary (S' := S') hb id]

/-- C79 for a compound system. -/
theorem C79_system {s s₁ : CompoundSystem} (hg : ∀ st ∈ s, st.group.Built)
    (hs : s₁.map GroupState.group = s.map GroupState.group)
    (h : ∀ st ∈ s, ∀ c ∈ st.group.channels, ∃ b, c.shiftFactor K lib E = .ok b ∧
      (c.belowThreshold E ∨ b = c.boundary)) (start m : CrossSectionMap) :
    (∃ s', CompoundSystem.evaluate .constant K lib E s start = .ok (m, s')) ↔
      ∃ s', CompoundSystem.evaluate .shiftFactor K lib E s₁ start = .ok (m, s') := by
  induction s generalizing s₁ start with
  | nil =>
    obtain rfl := List.map_eq_nil_iff.mp hs
    exact Iff.rfl
  | cons st rest ih =>
    cases s₁ with
    | nil => cases hs
    | cons st₁ rest₁ =>
      obtain ⟨g₁, cache₁⟩ := st₁
      simp only [List.map_cons, List.cons.injEq] at hs
      obtain ⟨rfl, hs⟩ := hs
      have hst := fun m' => C79_spin_group (hg st List.mem_cons_self) (h st List.mem_cons_self) st.cache cache₁
        start m'
      have hrest := fun m' => ih (s₁ := rest₁) (fun x hx => hg x (List.mem_cons_of_mem _ hx)) hs
        (fun x hx => h x (List.mem_cons_of_mem _ hx)) m'
      constructor
      · rintro ⟨s', e⟩
        obtain ⟨r, c, rest', h1, h2, rfl⟩ := evaluate_cons_ok.mp e
        obtain ⟨c', h3⟩ := (hst r).mp ⟨c, h1⟩
        obtain ⟨rest'', h4⟩ := (hrest r).mp ⟨rest', h2⟩
        exact ⟨_, evaluate_cons_ok.mpr ⟨r, c', rest'', h3, h4, rfl⟩⟩
      · rintro ⟨s', e⟩
        obtain ⟨r, c, rest', h1, h2, rfl⟩ := evaluate_cons_ok.mp e
        obtain ⟨c', h3⟩ := (hst r).mpr ⟨c, h1⟩
        obtain ⟨rest'', h4⟩ := (hrest r).mpr ⟨rest', h2⟩
        exact ⟨_, evaluate_cons_ok.mpr ⟨r, c', rest'', h3, h4, rfl⟩⟩

/-- The shift factor of photon and fission channels and of s-waves of neutrons is zero at every energy. -/
theorem shiftFactor_zero {c : Channel} (ht : c.type = .photon ∨ c.type = .fission ∨
      c.type = .neutron ∧ c.numbers.l = 0)
    (hr : ∃ a, c.radii.shiftFactor E = .ok a) : c.shiftFactor K lib E = .ok 0 := by
  obtain ⟨a, ha⟩ := hr
  rcases ht with ht | ht | ⟨ht, hl⟩
  · simp [Channel.shiftFactor, Channel.eta, ht, ha, bind, Except.bind, calculateShiftFactor]
  · simp [Channel.shiftFactor, Channel.eta, ht, ha, bind, Except.bind, calculateShiftFactor]
  · simp [Channel.shiftFactor, Channel.eta, ht, ha, bind, Except.bind, calculateShiftFactor, hl]

/-- C79: for photons, fission and s-waves of neutrons with zero as boundary condition, the kind of boundary
condition makes no difference at any energy at which there is a radius. -/
theorem C79_s_waves {g : SpinGroup} (hg : g.Built)
    (ht : ∀ c ∈ g.channels, (c.type = .photon ∨ c.type = .fission ∨ c.type = .neutron ∧ c.numbers.l = 0) ∧
      c.boundary = 0 ∧ ∃ a, c.radii.shiftFactor E = .ok a)
    (cache cache' : MatrixCache g.channels.length) (start m : CrossSectionMap) :
    (∃ c, g.evaluate .constant K lib E cache start = .ok (m, c)) ↔
      ∃ c, g.evaluate .shiftFactor K lib E cache' start = .ok (m, c) := by
  refine C79_spin_group hg (fun c hc => ?_) cache cache' start m
  obtain ⟨h1, h2, h3⟩ := ht c hc
  exact ⟨0, shiftFactor_zero h1 h3, Or.inr h2.symm⟩

/-- The spin group of the example, which has s-waves of neutrons and a fission channel, meets the hypotheses
at every energy. -/
example (E : ℝ) : ∀ c ∈ Example.group.channels, (c.type = .photon ∨ c.type = .fission ∨
    c.type = .neutron ∧ c.numbers.l = 0) ∧ c.boundary = 0 ∧ ∃ a, c.radii.shiftFactor E = .ok a := by
  intro c hc
  have hc' : c ∈ Example.channels := hc
  simp only [Example.channels, List.mem_cons, List.not_mem_nil, or_false] at hc'
  rcases hc' with rfl | rfl | rfl
  · exact ⟨Or.inr (Or.inr ⟨rfl, rfl⟩), rfl, 1, rfl⟩
  · exact ⟨Or.inr (Or.inr ⟨rfl, rfl⟩), rfl, 1, rfl⟩
  · exact ⟨Or.inr (Or.inl rfl), rfl, 1, rfl⟩

end Verif
