import Verif.Spec.Competition
import Verif.Props.Generations

/-!
# Lemmas on competitive widths
-/

namespace Verif.Endf

open Spec

/-- `b` is the resonance `a` without its competitive width, `q` is the penetrability of the competitive
channel. -/
structure Eased (q : ℝ) (a b : Assigned) : Prop where
  J : a.J = b.J
  energy : a.parameters.energy = b.parameters.energy
  elastic : a.parameters.elastic = b.parameters.elastic
  capture : a.parameters.capture = b.parameters.capture
  fission : a.parameters.fission = b.parameters.fission
  penetrability : a.parameters.penetrability = b.parameters.penetrability
  shiftFactor : a.parameters.shiftFactor = b.parameters.shiftFactor
  none : b.parameters.competition = 0
  spin : 0 ≤ a.J
  widths : 0 ≤ a.parameters.elastic ∧ 0 < a.parameters.capture ∧ 0 ≤ a.parameters.fission ∧
    0 < a.parameters.penetrability
  load : 0 ≤ a.parameters.competition * q / a.parameters.competitivePenetrability

theorem Eased.captureTerm {q : ℝ} {a b : Assigned} (h : Eased q a b) {I : ℚ} (hI : 0 ≤ I) (E : ℝ) {p : ℝ}
    (hp : 0 < p) (q' s : ℝ) :
    (neutronFactor I a.J : ℝ) * a.parameters.captureTerm E p q s
      ≤ (neutronFactor I b.J : ℝ) * b.parameters.captureTerm E p q' s ∧
    (0 < a.parameters.elastic → 0 < a.parameters.competition * q / a.parameters.competitivePenetrability →
      (neutronFactor I a.J : ℝ) * a.parameters.captureTerm E p q s
        < (neutronFactor I b.J : ℝ) * b.parameters.captureTerm E p q' s) := by
  obtain ⟨w1, w2, w3, w4⟩ := h.widths
  have hf : (0 : ℝ) < neutronFactor I b.J := by
    have h1 := h.spin
    rw [h.J] at h1
    have : (0 : ℚ) < neutronFactor I b.J := by
      unfold neutronFactor
      positivity
    exact_mod_cast this
  have e : b.parameters.totalWidth p q' = a.parameters.neutronWidth p + a.parameters.capture
      + a.parameters.fission := by
    unfold Parameters.totalWidth Parameters.neutronWidth
    rw [h.elastic, h.capture, h.fission, h.penetrability, h.none]
    ring
  have e' : a.parameters.totalWidth p q = b.parameters.totalWidth p q'
      + a.parameters.competition * q / a.parameters.competitivePenetrability := by
    rw [e]
    rfl
  have en : b.parameters.neutronWidth p = a.parameters.neutronWidth p := by
    unfold Parameters.neutronWidth
    rw [h.elastic, h.penetrability]
  have ep : b.parameters.position s = a.parameters.position s := by
    unfold Parameters.position
    rw [h.energy, h.elastic, h.penetrability, h.shiftFactor]
  have hn : 0 ≤ a.parameters.neutronWidth p := by
    unfold Parameters.neutronWidth
    positivity
  have ht : 0 < b.parameters.totalWidth p q' := by rw [e]; positivity
  have hd : 0 < b.parameters.denominator E p q' s := by
    unfold Parameters.denominator
    positivity
  have hload := h.load
  rw [h.J]
  constructor
  · refine mul_le_mul_of_nonneg_left ?_ hf.le
    unfold Parameters.captureTerm
    rw [en, ← h.capture]
    refine div_le_div_of_nonneg_left (by positivity) hd ?_
    unfold Parameters.denominator
    rw [e', ep]
    gcongr
    linarith
  · intro h1 h2
    refine mul_lt_mul_of_pos_left ?_ hf
    have hn' : 0 < a.parameters.neutronWidth p := by
      unfold Parameters.neutronWidth
      positivity
    unfold Parameters.captureTerm
    rw [en, ← h.capture]
    refine div_lt_div_of_pos_left (by positivity) hd ?_
    unfold Parameters.denominator
    rw [e', ep]
    gcongr
    linarith

theorem forall₂_sum_le {α β : Type*} {Q : α → β → Prop} {as : List α} {bs : List β}
    (h : List.Forall₂ Q as bs) {f : α → ℝ} {g : β → ℝ} (hfg : ∀ a b, Q a b → f a ≤ g b) :
    (as.map f).sum ≤ (bs.map g).sum ∧
    ((∃ a ∈ as, ∀ b, Q a b → f a < g b) → (as.map f).sum < (bs.map g).sum) := by
  induction h with
  | nil => exact ⟨le_refl _, fun ⟨_, h, _⟩ => absurd h List.not_mem_nil⟩
  | cons h1 _ ih =>
    simp only [List.map_cons, List.sum_cons]
    refine ⟨add_le_add (hfg _ _ h1) ih.1, ?_⟩
    rintro ⟨a, ha, h⟩
    rcases List.mem_cons.mp ha with rfl | ha
    · exact add_lt_add_of_lt_of_le (h _ h1) ih.1
    · exact add_lt_add_of_le_of_lt (hfg _ _ h1) (ih.2 ⟨a, ha, h⟩)

/-- A competitive width makes the capture smaller. -/
theorem captureSum_le {w w' : Wave} {as bs : List Assigned} (h : List.Forall₂ (Eased w.q) as bs)
    {I : ℚ} (hI : 0 ≤ I) (E : ℝ) (hp : 0 < w.p) (hpp : w.p = w'.p) (hss : w.s = w'.s) :
    captureSum I E w as ≤ captureSum I E w' bs ∧
    ((∃ a ∈ as, 0 < a.parameters.elastic ∧
      0 < a.parameters.competition * w.q / a.parameters.competitivePenetrability) →
      captureSum I E w as < captureSum I E w' bs) := by
  unfold captureSum
  obtain ⟨h1, h2⟩ := forall₂_sum_le h (f := fun r => (neutronFactor I r.J : ℝ)
      * r.parameters.captureTerm E w.p w.q w.s)
    (g := fun r => (neutronFactor I r.J : ℝ) * r.parameters.captureTerm E w'.p w'.q w'.s)
    fun a b hab => by
      rw [← hpp, ← hss]
      exact (hab.captureTerm hI E hp _ _).1
  refine ⟨h1, fun ⟨a, ha, ha1, ha2⟩ => h2 ⟨a, ha, fun b hab => ?_⟩⟩
  rw [← hpp, ← hss]
  exact (hab.captureTerm hI E hp _ _).2 ha1 ha2

/-- Sums over the l values of both evaluations. -/
theorem zip_sum {lvs : List BreitWignerLValue} {ws ws' : List (Wave × List Assigned)}
    {P P' : BreitWignerLValue → Wave × List Assigned → Prop}
    {f g : BreitWignerLValue → Wave × List Assigned → ℝ}
    (h : List.Forall₂ P lvs ws) (h' : List.Forall₂ P' (lvs.map noCompetition) ws')
    (hle : ∀ lv ∈ lvs, ∀ w w', P lv w → P' (noCompetition lv) w' → f lv w ≤ g (noCompetition lv) w') :
    (List.zipWith f lvs ws).sum ≤ (List.zipWith g (lvs.map noCompetition) ws').sum ∧
    ((∃ lv ∈ lvs, ∀ w w', P lv w → P' (noCompetition lv) w' → f lv w < g (noCompetition lv) w') →
      (List.zipWith f lvs ws).sum < (List.zipWith g (lvs.map noCompetition) ws').sum) := by
  induction lvs generalizing ws ws' with
  | nil =>
    cases h
    cases h'
    exact ⟨le_refl _, fun ⟨_, h, _⟩ => absurd h List.not_mem_nil⟩
  | cons lv lvs ih =>
    cases h with
    | cons h1 h2 =>
      cases h' with
      | cons h1' h2' =>
        simp only [List.map_cons, List.zipWith_cons_cons, List.sum_cons]
        have ih := ih h2 h2' fun lv hlv => hle lv (List.mem_cons_of_mem _ hlv)
        have hl := hle lv List.mem_cons_self _ _ h1 h1'
        refine ⟨add_le_add hl ih.1, ?_⟩
        rintro ⟨x, hx, h⟩
        rcases List.mem_cons.mp hx with rfl | hx
        · exact add_lt_add_of_lt_of_le (h _ _ h1 h1') ih.1
        · exact add_lt_add_of_le_of_lt hl (ih.2 ⟨x, hx, h⟩)

theorem zipWith_right {lvs : List BreitWignerLValue} {ws : List (Wave × List Assigned)}
    (h : lvs.length = ws.length) (f : Wave × List Assigned → ℝ) :
    List.zipWith (fun _ w => f w) lvs ws = ws.map f := by
  induction lvs generalizing ws with
  | nil => rw [List.eq_nil_of_length_eq_zero h.symm]; rfl
  | cons lv lvs ih =>
    cases ws with
    | nil => cases h
    | cons w ws =>
      rw [List.zipWith_cons_cons, List.map_cons, ih (by simpa using h)]

theorem positiveWaveNumber {c A e : ℝ} (hc : 0 < c) (hA : 0 < A) (he : e ≠ 0) :
    0 < neutronWaveNumber c A e := by
  have : 0 < Real.sqrt |e| := Real.sqrt_pos.mpr (abs_pos.mpr he)
  unfold neutronWaveNumber
  positivity

/-- Resonances of one l value, paired with those without competitive widths. -/
theorem eased_list {as bs : List Assigned} {q : ℝ}
    {P P' : BreitWignerResonance → Assigned → Prop} (rs : List BreitWignerResonance)
    (h : List.Forall₂ P rs as)
    (h' : List.Forall₂ P' (rs.map fun r => { r with competitiveWidth := 0 }) bs)
    (hq : ∀ r ∈ rs, ∀ a b, P r a → P' { r with competitiveWidth := 0 } b → Eased q a b) :
    List.Forall₂ (Eased q) as bs := by
  induction h generalizing bs with
  | nil => cases h'; exact .nil
  | cons h1 _ ih =>
    cases h' with
    | cons h1' h2' =>
      exact .cons (hq _ List.mem_cons_self _ _ h1 h1')
        (ih h2' fun r hr => hq r (List.mem_cons_of_mem _ hr))

theorem forall₂_left {α β : Type*} {P : α → β → Prop} {as : List α} {bs : List β} (h : List.Forall₂ P as bs)
    {a : α} (ha : a ∈ as) : ∃ b ∈ bs, P a b := by
  induction h with
  | nil => cases ha
  | cons h1 _ ih =>
    rcases List.mem_cons.mp ha with rfl | ha
    · exact ⟨_, List.mem_cons_self, h1⟩
    · obtain ⟨b, hb, h⟩ := ih ha
      exact ⟨b, List.mem_cons_of_mem _ hb, h⟩

end Verif.Endf
