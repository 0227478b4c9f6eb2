import Verif.Props.BoundaryChange
import Verif.Props.Elimination
import Verif.Lemmas.TMatrix

/-!
# Property C87 for the T-matrix
-/

namespace Verif

open Complex Matrix

variable {option : BoundaryOption} {K : Constants} {lib : CoulombLibrary} {E : ℝ} {n : ℕ}

/-- What the evaluation of the T-matrix needs. -/
theorem evaluateTMatrix_succeeds {g : SpinGroup} {P S : Fin g.channels.length → ℝ}
    (hP : ∀ i : Fin g.channels.length, g.channels[i].penetrability K lib E = .ok (P i))
    (hS : option = .constant → ∀ i : Fin g.channels.length, g.channels[i].shiftFactor K lib E = .ok (S i))
    (hnn : ∀ i, 0 ≤ P i) (hwid : ∀ r ∈ g.table.resonances, r.widths.length = g.channels.length)
    (hpole : ∀ r ∈ g.table.resonances, ¬ (r.energy = E ∧ r.eliminated = 0))
    (hdet : (Spec.levelDenominator option g.channels g.table.resonances E P S).det ≠ 0)
    (cache : MatrixCache g.channels.length) (result : Str → Option ℂ) :
    ∃ r, g.evaluateTMatrix option K lib E cache result = .ok r := by
  have hrl := (rlmatrix_ok (option := option) (K := K) (lib := lib) (cache := cache)
    (P := P) (E := E)).mpr ⟨hwid, fun r hr => (denominator_ne_zero r E).mpr (hpole r hr), S, hS,
      hdet, rfl⟩
  unfold SpinGroup.evaluateTMatrix
  rw [collect_ok.mpr hP]
  simp only [bind, Except.bind]
  rw [if_neg (by push Not; exact hnn), hrl]
  exact ⟨_, rfl⟩

/-- C87 for the T-matrix of a spin group: it is the same map, element by element. -/
theorem C87_t_matrix {g g' : SpinGroup} (hg : g.Built) (hg' : g'.Built) {Q : Matrix (Fin n) (Fin n) ℝ}
    (h : Spec.BoundaryChange Q g.channels g'.channels g.table.resonances g'.table.resonances)
    (hclosed : ∀ c : Fin g.channels.length, g.channels[c].belowThreshold E →
      Spec.boundaryShift g.channels g'.channels c = 0)
    (hp : ∀ r ∈ g'.table.resonances, ¬ (r.energy = E ∧ r.eliminated = 0))
    (harrow : ∀ c ∈ g.channels, ¬ ContainsArrow c.id)
    {cache c : MatrixCache g.channels.length} {start m : Str → Option ℂ}
    (hok : g.evaluateTMatrix .constant K lib E cache start = .ok (m, c))
    (cache' : MatrixCache g'.channels.length) :
    ∃ c', g'.evaluateTMatrix .constant K lib E cache' start = .ok (m, c') := by
  have hs := h.sameChannels
  obtain ⟨P, S, hP, hS, hnn, hwid, hdet, hel, hrest⟩ := evaluateTMatrix_ok hg harrow hok
  obtain ⟨hdet', hT⟩ := tMatrix_change h hclosed (evaluateTMatrix_noPole hok) hp hdet
  set σ := finCongr (same_length hs).symm with hσ
  have hsame : ∀ i : Fin g.channels.length, g'.channels[σ i]
      = { g.channels[i] with boundary := g'.channels[σ i].boundary } := same_getElem hs
  have hsame' : ∀ i : Fin g'.channels.length, g'.channels[i]
      = { g.channels[σ.symm i] with boundary := g'.channels[i].boundary } := by
    intro i
    obtain ⟨j, rfl⟩ := σ.surjective i
    exact hsame j
  have hid : ∀ i, g'.channels[σ i].id = g.channels[i].id := by
    intro i; rw [hsame i]
  have hids : g'.channels.map Channel.id = g.channels.map Channel.id := by
    clear * - hs
    generalize g.channels = a at hs
    generalize g'.channels = b at hs
    induction hs with
    | nil => rfl
    | cons hc _ ih => rw [List.map_cons, List.map_cons, ih, hc]
  have hmem : ∀ {a b : List Channel}, a.map Channel.id = b.map Channel.id → ∀ c ∈ a, ∃ d ∈ b, d.id = c.id := by
    intro a b e c hc
    exact List.mem_map.mp (e ▸ List.mem_map_of_mem hc)
  have harrow' : ∀ c ∈ g'.channels, ¬ ContainsArrow c.id := by
    intro c hc
    obtain ⟨d, hd, e⟩ := hmem hids c hc
    rw [← e]
    exact harrow d hd
  have hP' : ∀ i : Fin g'.channels.length, g'.channels[i].penetrability K lib E = .ok ((P ∘ σ.symm) i) := by
    intro i; rw [hsame' i]; exact hP _
  have hS' : ∀ i : Fin g'.channels.length, g'.channels[i].shiftFactor K lib E = .ok ((S ∘ σ.symm) i) := by
    intro i; rw [hsame' i]; exact hS rfl _
  obtain ⟨⟨m', c'⟩, e⟩ := evaluateTMatrix_succeeds (g := g') hP' (fun _ => hS') (fun i => hnn _)
    (fun r hr => by rw [h.widths' r hr, same_length hs]) hp hdet' cache' start
  refine ⟨c', ?_⟩
  rw [e]
  congr 2
  obtain ⟨P₂, S₂, hP₂, hS₂, -, -, -, hel₂, hrest₂⟩ := evaluateTMatrix_ok hg' harrow' e
  have eP : P₂ = P ∘ σ.symm := by
    funext i
    exact Except.ok.inj ((hP₂ i).symm.trans (hP' i))
  have eS : S₂ = S ∘ σ.symm := by
    funext i
    exact Except.ok.inj ((hS₂ rfl i).symm.trans (hS' i))
  funext key
  by_cases hk : ∃ c ∈ g.channels, ∃ c' ∈ g.channels, key = tMatrixKey c.id c'.id
  · obtain ⟨c, hc, d, hd, rfl⟩ := hk
    obtain ⟨i, hi, rfl⟩ := List.getElem_of_mem hc
    obtain ⟨j, hj, rfl⟩ := List.getElem_of_mem hd
    have h1 := hel ⟨i, hi⟩ ⟨j, hj⟩
    have h2 := hel₂ (σ ⟨i, hi⟩) (σ ⟨j, hj⟩)
    rw [hid, hid, eP, eS, hT] at h2
    exact h2.trans h1.symm
  · push Not at hk
    rw [hrest key hk, hrest₂ key]
    intro c hc d hd
    obtain ⟨c', hc', ec⟩ := hmem hids c hc
    obtain ⟨d', hd', ed⟩ := hmem hids d hd
    rw [← ec, ← ed]
    exact hk c' hc' d' hd'

theorem evaluateTMatrix_cons_ok {st : GroupState} {s s₂ : CompoundSystem} {start m : Str → Option ℂ} :
    CompoundSystem.evaluateTMatrix option K lib E (st :: s) start = .ok (m, s₂) ↔
      ∃ r c rest, st.group.evaluateTMatrix option K lib E st.cache start = .ok (r, c) ∧
        CompoundSystem.evaluateTMatrix option K lib E s r = .ok (m, rest) ∧ s₂ = ⟨st.group, c⟩ :: rest := by
  rw [CompoundSystem.evaluateTMatrix]
  constructor
  · intro h
    obtain ⟨⟨r, c⟩, h1, h⟩ := bind_ok.mp h
    obtain ⟨⟨m', rest⟩, h2, h⟩ := bind_ok.mp h
    cases h
    exact ⟨r, c, rest, h1, h2, rfl⟩
  · rintro ⟨r, c, rest, h1, h2, rfl⟩
    exact bind_ok.mpr ⟨_, h1, bind_ok.mpr ⟨_, h2, rfl⟩⟩

/-- C87 for the T-matrix of a compound system. -/
theorem C87_t_matrix_system {s s' : CompoundSystem} (hg : ∀ st ∈ s, st.group.Built)
    (hg' : ∀ st ∈ s', st.group.Built)
    (harrow : ∀ st ∈ s, ∀ c ∈ st.group.channels, ¬ ContainsArrow c.id)
    (h : List.Forall₂ (fun st st' : GroupState => ∃ n, ∃ Q : Matrix (Fin n) (Fin n) ℝ,
      Spec.BoundaryChange Q st.group.channels st'.group.channels st.group.table.resonances
        st'.group.table.resonances ∧
      (∀ c : Fin st.group.channels.length, st.group.channels[c].belowThreshold E →
        Spec.boundaryShift st.group.channels st'.group.channels c = 0) ∧
      ∀ r ∈ st'.group.table.resonances, ¬ (r.energy = E ∧ r.eliminated = 0)) s s')
    {start m : Str → Option ℂ} {s₂ : CompoundSystem}
    (hok : CompoundSystem.evaluateTMatrix .constant K lib E s start = .ok (m, s₂)) :
    ∃ s₂', CompoundSystem.evaluateTMatrix .constant K lib E s' start = .ok (m, s₂') := by
  induction h generalizing start s₂ with
  | nil =>
    cases hok
    exact ⟨[], rfl⟩
  | @cons st st' s s' h1 _ ih =>
    obtain ⟨n, Q, h1, h2, h3⟩ := h1
    obtain ⟨r, c, rest, h4, h5, rfl⟩ := evaluateTMatrix_cons_ok.mp hok
    obtain ⟨c', h6⟩ := C87_t_matrix (hg st List.mem_cons_self) (hg' st' List.mem_cons_self) h1 h2 h3
      (harrow st List.mem_cons_self) h4 st'.cache
    obtain ⟨s₂', h7⟩ := ih (fun x hx => hg x (List.mem_cons_of_mem _ hx))
      (fun x hx => hg' x (List.mem_cons_of_mem _ hx)) (fun x hx => harrow x (List.mem_cons_of_mem _ hx)) h5
    exact ⟨_, evaluateTMatrix_cons_ok.mpr ⟨_, _, _, h6, h7, rfl⟩⟩

open Example in
/-- The boundary condition of a channel changed from 0 to 1 at an energy above its threshold: the T-matrix is the
same with the energy of the resonance changed from 3 to -1. -/
example (lib : CoulombLibrary) (cache : MatrixCache (withBoundary 0 3).channels.length)
    (cache' : MatrixCache (withBoundary 1 (3 - 4 * (1 - 0))).channels.length) :
    ∃ m c c', (withBoundary 0 3).evaluateTMatrix .constant constants lib 1000 cache (fun _ => none) = .ok (m, c) ∧
      (withBoundary 1 (3 - 4 * (1 - 0))).evaluateTMatrix .constant constants lib 1000 cache' (fun _ => none)
        = .ok (m, c') := by
  have hn : ∀ c ∈ (withBoundary 0 3).channels, NeutralAt 1000 c := by
    intro c hc
    simp only [withBoundary, List.mem_cons, List.not_mem_nil, or_false] at hc
    rcases hc with rfl | rfl
    · exact ⟨by decide, fun _ => by decide, fun _ => by norm_num [elastic, makeChannel, pair],
        by norm_num [elastic, makeChannel, pair], ⟨1, one_pos, rfl⟩, ⟨1, rfl⟩, ⟨1, rfl⟩⟩
    · exact ⟨by decide, fun _ => by decide, fun _ => by norm_num [inelastic, makeChannel, excited],
        by norm_num [inelastic, makeChannel, pair], ⟨1, one_pos, rfl⟩, ⟨1, rfl⟩, ⟨1, rfl⟩⟩
  obtain ⟨⟨m, c⟩, h⟩ := (C19_neutral_channels (option := .constant) (K := constants) (lib := lib)
    (withBoundary_built 0 3) hn (by simp [withBoundary]) (by simp [withBoundary]) cache (fun _ => none)
    (fun _ => none)).2
  obtain ⟨c', h'⟩ := C87_t_matrix (withBoundary_built 0 3) (withBoundary_built 1 (3 - 4 * (1 - 0)))
    (withBoundary_change 0 1 3) (by
      intro c hc
      exfalso
      have hm : (withBoundary 0 3).channels[c] ∈ (withBoundary 0 3).channels := List.getElem_mem _
      generalize (withBoundary 0 3).channels[c] = d at hm hc
      simp only [withBoundary, List.mem_cons, List.not_mem_nil, or_false] at hm
      rcases hm with rfl | rfl <;>
        norm_num [Channel.belowThreshold, elastic, inelastic, makeChannel, pair] at hc) (by simp [withBoundary]) (by
      intro c hc
      simp only [withBoundary, List.mem_cons, List.not_mem_nil, or_false] at hc
      rcases hc with rfl | rfl
      · exact noArrow elastic (by simp [group, channels])
      · exact noArrow inelastic (by simp [group, channels])) h cache'
  exact ⟨m, c, c', h, h'⟩

end Verif
