import Verif.Props.Boundary
import Verif.Props.BoundaryChangeT

/-!
# Property C79 for the T-matrix
-/

namespace Verif

variable {K : Constants} {lib : CoulombLibrary} {E : ℝ}

theorem evaluateTMatrix_same {o o' : BoundaryOption} {g : SpinGroup} (hg : g.Built)
    (harrow : ∀ c ∈ g.channels, ¬ ContainsArrow c.id) {S : Fin g.channels.length → ℝ}
    (hS : ∀ i : Fin g.channels.length, g.channels[i].shiftFactor K lib E = .ok (S i))
    (hD : ∀ P S' S'', (o = .constant → S' = S) → (o' = .constant → S'' = S) →
      Spec.levelDenominator o g.channels g.table.resonances E P S'
        = Spec.levelDenominator o' g.channels g.table.resonances E P S'')
    {cache c : MatrixCache g.channels.length} {start m : Str → Option ℂ}
    (e : g.evaluateTMatrix o K lib E cache start = .ok (m, c)) (cache' : MatrixCache g.channels.length) :
    ∃ c, g.evaluateTMatrix o' K lib E cache' start = .ok (m, c) := by
  obtain ⟨P, S', hP, hS', hnn, hwid, hdet, hel, hrest⟩ := evaluateTMatrix_ok hg harrow e
  have h1 : o = .constant → S' = S := fun ho => funext fun i => Except.ok.inj ((hS' ho i).symm.trans (hS i))
  obtain ⟨⟨m', c'⟩, e'⟩ := evaluateTMatrix_succeeds (option := o') (g := g) hP (fun _ => hS) hnn hwid
    (evaluateTMatrix_noPole e) (by rw [← hD P S' S h1 fun _ => rfl]; exact hdet) cache' start
  obtain ⟨P₂, S₂, hP₂, hS₂, -, -, -, hel₂, hrest₂⟩ := evaluateTMatrix_ok hg harrow e'
  have eP : P₂ = P := funext fun i => Except.ok.inj ((hP₂ i).symm.trans (hP i))
  subst eP
  have h2 : o' = .constant → S₂ = S := fun ho => funext fun i => Except.ok.inj ((hS₂ ho i).symm.trans (hS i))
  have hT : Spec.tMatrix o' g.channels g.table.resonances E P₂ S₂
      = Spec.tMatrix o g.channels g.table.resonances E P₂ S' := by
    unfold Spec.tMatrix
    rw [hD P₂ S' S₂ h1 h2]
  refine ⟨c', ?_⟩
  rw [e']
  congr 2
  funext key
  by_cases hk : ∃ c ∈ g.channels, ∃ c' ∈ g.channels, key = tMatrixKey c.id c'.id
  · obtain ⟨c, hc, d, hd, rfl⟩ := hk
    obtain ⟨i, hi, rfl⟩ := List.getElem_of_mem hc
    obtain ⟨j, hj, rfl⟩ := List.getElem_of_mem hd
    have h1 := hel ⟨i, hi⟩ ⟨j, hj⟩
    have h2 := hel₂ ⟨i, hi⟩ ⟨j, hj⟩
    rw [hT] at h2
    exact h2.trans h1.symm
  · push Not at hk
    rw [hrest key hk, hrest₂ key hk]

/-- C79 for the T-matrix of a spin group. -/
theorem C79_t_matrix {g : SpinGroup} (hg : g.Built) (harrow : ∀ c ∈ g.channels, ¬ ContainsArrow c.id)
    (h : ∀ c ∈ g.channels, ∃ s, c.shiftFactor K lib E = .ok s ∧ (c.belowThreshold E ∨ s = c.boundary))
    (cache cache' : MatrixCache g.channels.length) (start m : Str → Option ℂ) :
    (∃ c, g.evaluateTMatrix .constant K lib E cache start = .ok (m, c)) ↔
      ∃ c, g.evaluateTMatrix .shiftFactor K lib E cache' start = .ok (m, c) := by
  choose S hS hb using fun i : Fin g.channels.length => h g.channels[i] (List.getElem_mem _)
  constructor
  · rintro ⟨c, e⟩
    refine evaluateTMatrix_same hg harrow hS (fun P S' S'' h1 _ => ?_) e cache'
    rw [h1 rfl]
    exact levelDenominator_boundary hb
  · rintro ⟨c, e⟩
    refine evaluateTMatrix_same hg harrow hS (fun P S' S'' _ h2 => ?_) e cache
    rw [h2 rfl]
    exact (levelDenominator_boundary hb).symm

/-- C79 for the T-matrix of a compound system. -/
theorem C79_t_matrix_system {s s₁ : CompoundSystem} (hg : ∀ st ∈ s, st.group.Built)
    (harrow : ∀ st ∈ s, ∀ c ∈ st.group.channels, ¬ ContainsArrow c.id)
    (hs : s₁.map GroupState.group = s.map GroupState.group)
    (h : ∀ st ∈ s, ∀ c ∈ st.group.channels, ∃ b, c.shiftFactor K lib E = .ok b ∧
      (c.belowThreshold E ∨ b = c.boundary)) (start m : Str → Option ℂ) :
    (∃ s', CompoundSystem.evaluateTMatrix .constant K lib E s start = .ok (m, s')) ↔
      ∃ s', CompoundSystem.evaluateTMatrix .shiftFactor K lib E s₁ start = .ok (m, s') := by
  induction s generalizing s₁ start with
  | nil =>
    obtain rfl := List.map_eq_nil_iff.mp hs
    exact Iff.rfl
  | cons st rest ih =>
    cases s₁ with
    | nil => cases hs
    | cons st₁ rest₁ =>
      obtain ⟨g₁, cache₁⟩ := st₁
      simp only [List.map_cons, List.cons.injEq] at hs
      obtain ⟨rfl, hs⟩ := hs
      have hst := fun m' => C79_t_matrix (hg st List.mem_cons_self) (harrow st List.mem_cons_self)
        (h st List.mem_cons_self) st.cache cache₁ start m'
      have hrest := fun m' => ih (s₁ := rest₁) (fun x hx => hg x (List.mem_cons_of_mem _ hx))
        (fun x hx => harrow x (List.mem_cons_of_mem _ hx)) hs
        (fun x hx => h x (List.mem_cons_of_mem _ hx)) m'
      constructor
      · rintro ⟨s', e⟩
        obtain ⟨r, c, rest', h1, h2, rfl⟩ := evaluateTMatrix_cons_ok.mp e
        obtain ⟨c', h3⟩ := (hst r).mp ⟨c, h1⟩
        obtain ⟨rest'', h4⟩ := (hrest r).mp ⟨rest', h2⟩
        exact ⟨_, evaluateTMatrix_cons_ok.mpr ⟨r, c', rest'', h3, h4, rfl⟩⟩
      · rintro ⟨s', e⟩
        obtain ⟨r, c, rest', h1, h2, rfl⟩ := evaluateTMatrix_cons_ok.mp e
        obtain ⟨c', h3⟩ := (hst r).mpr ⟨c, h1⟩
        obtain ⟨rest'', h4⟩ := (hrest r).mpr ⟨rest', h2⟩
        exact ⟨_, evaluateTMatrix_cons_ok.mpr ⟨r, c', rest'', h3, h4, rfl⟩⟩

open Example in
/-- The group of the example has a T-matrix, which is the same for both kinds of boundary conditions. -/
example (lib : CoulombLibrary) (cache : MatrixCache group.channels.length) :
    ∃ m c c', group.evaluateTMatrix .constant constants lib 2 cache (fun _ => none) = .ok (m, c) ∧
      group.evaluateTMatrix .shiftFactor constants lib 2 cache (fun _ => none) = .ok (m, c') := by
  obtain ⟨⟨m, c⟩, e⟩ := (evaluates .constant lib cache (fun _ => none) (fun _ => none)).2
  obtain ⟨c', e'⟩ := (C79_t_matrix (K := constants) (lib := lib) (E := 2) group_built noArrow (by
    intro c hc
    refine ⟨0, ?_, Or.inr ?_⟩
    · refine shiftFactor_zero ?_ ?_
      · have hc' : c ∈ Example.channels := hc
        simp only [Example.channels, List.mem_cons, List.not_mem_nil, or_false] at hc'
        rcases hc' with rfl | rfl | rfl
        · exact Or.inr (Or.inr ⟨rfl, rfl⟩)
        · exact Or.inr (Or.inr ⟨rfl, rfl⟩)
        · exact Or.inr (Or.inl rfl)
      · have hc' : c ∈ Example.channels := hc
        simp only [Example.channels, List.mem_cons, List.not_mem_nil, or_false] at hc'
        rcases hc' with rfl | rfl | rfl <;> exact ⟨1, rfl⟩
    · have hc' : c ∈ Example.channels := hc
      simp only [Example.channels, List.mem_cons, List.not_mem_nil, or_false] at hc'
      rcases hc' with rfl | rfl | rfl <;> rfl) cache cache (fun _ => none) m).mp ⟨c, e⟩
  exact ⟨m, c, c', e, e'⟩

end Verif
