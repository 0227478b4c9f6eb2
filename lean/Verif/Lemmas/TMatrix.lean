import Verif.Props.SpinGroupConstruction

/-!
# What evaluating the T-matrix of a spin group returns
-/

namespace Verif

open Complex Matrix

theorem foldl_update {α β : Type*} (key : α → Str) (val : α → β) (l : List α)
    (hinj : ∀ a ∈ l, ∀ b ∈ l, key a = key b → a = b) (m : Str → Option β) :
    (∀ a ∈ l, (l.foldl (fun m a => Function.update m (key a) (some (val a))) m) (key a)
      = some (val a)) ∧
    (∀ k, (∀ a ∈ l, k ≠ key a) →
      (l.foldl (fun m a => Function.update m (key a) (some (val a))) m) k = m k) := by
  induction l generalizing m with
  | nil => simp
  | cons x l ih =>
    have hinj' : ∀ a ∈ l, ∀ b ∈ l, key a = key b → a = b := fun a ha b hb =>
      hinj a (List.mem_cons_of_mem _ ha) b (List.mem_cons_of_mem _ hb)
    obtain ⟨h1, h2⟩ := ih hinj' (Function.update m (key x) (some (val x)))
    rw [List.foldl_cons]
    refine ⟨?_, ?_⟩
    · intro a ha
      by_cases hal : a ∈ l
      · exact h1 a hal
      · have : a = x := (List.mem_cons.mp ha).resolve_right hal
        subst this
        rw [h2 _ ?_]
        · simp
        · intro b hb he
          have := hinj a (by simp) b (List.mem_cons_of_mem _ hb) he
          rw [this] at hal
          exact hal hb
    · intro k hk
      rw [h2 k fun a ha => hk a (List.mem_cons_of_mem _ ha)]
      rw [Function.update_of_ne (hk x (by simp))]

theorem foldl_foldl_product {α β γ : Type*} (f : γ → α → β → γ) (as : List α) (bs : List β) (m : γ) :
    as.foldl (fun m a => bs.foldl (fun m b => f m a b) m) m
      = (as.product bs).foldl (fun m p => f m p.1 p.2) m := by
  induction as generalizing m with
  | nil => rfl
  | cons a as ih =>
    rw [List.foldl_cons, ih]
    have : (a :: as).product bs = bs.map (Prod.mk a) ++ as.product bs := by
      simp [List.product]
    rw [this, List.foldl_append, List.foldl_map]

theorem SpinGroup.Built.nodup {g : SpinGroup} (h : g.Built) : (g.channels.map Channel.id).Nodup :=
  ((C24_accepted _ _).mp ⟨g, h⟩).uniqueIDs

theorem id_injective {channels : List Channel} (h : (channels.map Channel.id).Nodup)
    {i j : Fin channels.length} (hij : channels[i].id = channels[j].id) : i = j := by
  have := (List.nodup_iff_injective_get.mp h)
  have h2 : (⟨i, by simp⟩ : Fin (channels.map Channel.id).length) = ⟨j, by simp⟩ := by
    apply this
    simpa using hij
  simpa [Fin.ext_iff] using h2

/-- Everything `evaluateTMatrix` returns. -/
theorem evaluateTMatrix_ok {option : BoundaryOption} {K : Constants} {lib : CoulombLibrary}
    {g : SpinGroup} (hg : g.Built) (harrow : ∀ c ∈ g.channels, ¬ ContainsArrow c.id)
    {E : ℝ} {cache cache' : MatrixCache g.channels.length} {result result' : Str → Option ℂ}
    (h : g.evaluateTMatrix option K lib E cache result = .ok (result', cache')) :
    ∃ P S : Fin g.channels.length → ℝ,
      (∀ i : Fin g.channels.length, g.channels[i].penetrability K lib E = .ok (P i)) ∧
      (option = .constant →
        ∀ i : Fin g.channels.length, g.channels[i].shiftFactor K lib E = .ok (S i)) ∧
      (∀ i, 0 ≤ P i) ∧ (∀ r ∈ g.table.resonances, r.widths.length = g.channels.length) ∧
      (Spec.levelDenominator option g.channels g.table.resonances E P S).det ≠ 0 ∧
      (∀ c c' : Fin g.channels.length, result' (tMatrixKey g.channels[c].id g.channels[c'].id)
        = some (Spec.tMatrix option g.channels g.table.resonances E P S c c')) ∧
      ∀ key, (∀ c ∈ g.channels, ∀ c' ∈ g.channels, key ≠ tMatrixKey c.id c'.id) →
        result' key = result key := by
  unfold SpinGroup.evaluateTMatrix at h
  simp only [bind, Except.bind] at h
  cases hP : collect fun i => g.channels[i].penetrability K lib E with
  | error e => rw [hP] at h; cases h
  | ok P =>
    rw [hP] at h
    simp only at h
    by_cases hneg : ∃ i, P i < 0
    · rw [if_pos hneg] at h; cases h
    · rw [if_neg hneg] at h
      have hnn : ∀ i, 0 ≤ P i := fun i => not_lt.mp fun h => hneg ⟨i, h⟩
      cases hrl : rlmatrix option K lib g.channels g.table.resonances E P cache with
      | error e => rw [hrl] at h; cases h
      | ok c =>
        rw [hrl] at h
        simp only [pure, Except.pure, Except.ok.injEq, Prod.mk.injEq] at h
        obtain ⟨h, rfl⟩ := h
        obtain ⟨hwid, _, S, hS, hdet, rfl⟩ := rlmatrix_ok.mp hrl
        refine ⟨P, S, collect_ok.mp hP, hS, hnn, hwid, hdet, ?_⟩
        rw [foldl_foldl_product] at h
        have key := foldl_update
          (fun p : Fin g.channels.length × Fin g.channels.length =>
            tMatrixKey g.channels[p.1].id g.channels[p.2].id)
          (fun p => (Real.sqrt (P p.1) : ℂ) *
            ((Spec.levelDenominator option g.channels g.table.resonances E P S)⁻¹ *
              Spec.rMatrix g.channels g.table.resonances E) p.2 p.1 * (Real.sqrt (P p.2) : ℂ))
          ((List.finRange g.channels.length).product (List.finRange g.channels.length)) (by
            rintro ⟨a, a'⟩ _ ⟨b, b'⟩ _ hab
            obtain ⟨h1, h2⟩ := tMatrixKey_split _ _ _ _ (harrow _ (List.getElem_mem _))
              (harrow _ (List.getElem_mem _)) hab
            exact Prod.ext (id_injective hg.nodup h1) (id_injective hg.nodup h2)) result
        rw [h] at key
        refine ⟨?_, ?_⟩
        · intro c c'
          have := key.1 (c, c') (by simp)
          rw [this, tMatrix_symm hdet]
          simp only [Spec.tMatrix, Matrix.of_apply]
          congr 1
          ring
        · intro k hk
          apply key.2
          rintro ⟨c, c'⟩ _
          exact hk _ (List.getElem_mem _) _ (List.getElem_mem _)

/-- The T-matrix can be evaluated wherever the cross sections can. -/
theorem evaluateTMatrix_ok_of {option : BoundaryOption} {K : Constants} {lib : CoulombLibrary}
    {g : SpinGroup} {E : ℝ} {P S w phi : Fin g.channels.length → ℝ}
    (h : Spec.Evaluable option K lib g.channels g.table.resonances E P S w phi)
    (cache : MatrixCache g.channels.length) (result : Str → Option ℂ) :
    ∃ r, g.evaluateTMatrix option K lib E cache result = .ok r := by
  obtain ⟨hP, hS, hw, hphi, hnn, hwid, hpole, hdet, -⟩ := h
  have hrl := (rlmatrix_ok (option := option) (K := K) (lib := lib) (cache := cache)
    (P := P) (E := E)).mpr ⟨hwid, fun r hr => (denominator_ne_zero r E).mpr (hpole r hr), S, hS,
      hdet, rfl⟩
  unfold SpinGroup.evaluateTMatrix
  rw [collect_ok.mpr hP]
  simp only [bind, Except.bind]
  rw [if_neg (by push Not; exact hnn), hrl]
  exact ⟨_, rfl⟩

end Verif
