import Verif.Lemmas.RMatrixData

/-!
# Spin groups with the channels that take no part left out
-/

namespace Verif.Endf

open Spec Complex

/-- Sums over the keys of a list. -/
theorem sum_keys {α κ M : Type*} [DecidableEq κ] [AddCommMonoid M] {key : α → κ} {g : κ → M} {f : α → M} :
    ∀ {l : List α} {xs : List κ}, (l.map key).Nodup → xs.Nodup → (∀ x ∈ xs, x ∈ l.map key) →
      (∀ a ∈ l, key a ∈ xs → g (key a) = f a) → (∀ a ∈ l, key a ∉ xs → f a = 0) →
      (xs.map g).sum = (l.map f).sum := by
  intro l
  induction l with
  | nil =>
    intro xs _ _ hs _ _
    cases xs with
    | nil => rfl
    | cons x xs => exact absurd (hs x List.mem_cons_self) (by simp)
  | cons a l ih =>
    intro xs hn hx hs h1 h0
    rw [List.map_cons, List.nodup_cons] at hn
    rw [List.map_cons, List.sum_cons]
    by_cases ha : key a ∈ xs
    · have hp := (List.perm_cons_erase ha).map g
      rw [hp.sum_eq, List.map_cons, List.sum_cons, h1 a List.mem_cons_self ha]
      congr 1
      refine ih hn.2 (hx.erase _) (fun x h => ?_) (fun b hb h => ?_) fun b hb h => ?_
      · obtain ⟨h2, h3⟩ := (List.Nodup.mem_erase_iff hx).mp h
        rcases List.mem_cons.mp (hs x h3) with h4 | h4
        · exact absurd h4 h2
        · exact h4
      · exact h1 b (List.mem_cons_of_mem _ hb) (List.mem_of_mem_erase h)
      · refine h0 b (List.mem_cons_of_mem _ hb) fun h2 => h ?_
        refine (List.Nodup.mem_erase_iff hx).mpr ⟨fun h3 => hn.1 ?_, h2⟩
        rw [← h3]
        exact List.mem_map_of_mem hb
    · rw [h0 a List.mem_cons_self ha, zero_add]
      refine ih hn.2 hx (fun x h => ?_) (fun b hb h => ?_) fun b hb h => ?_
      · rcases List.mem_cons.mp (hs x h) with h4 | h4
        · rw [h4] at h
          exact absurd h ha
        · exact h4
      · exact h1 b (List.mem_cons_of_mem _ hb) h
      · exact h0 b (List.mem_cons_of_mem _ hb) h

/-- The positions of the members of a list. -/
theorem exists_embedding {α : Type*} {n : ℕ} {ks : List (Fin n)} (hn : ks.Nodup) {f : Fin n → α}
    {l : List α} (h : l = ks.map f) :
    ∃ e : Fin l.length → Fin n, Function.Injective e ∧ (∀ i, i ∈ Set.range e ↔ i ∈ ks) ∧
      (∀ a, l[a] = f (e a)) ∧ ∀ (w : Fin n → ℝ) (a : Fin l.length), (ks.map w).getD a 0 = w (e a) := by
  subst h
  have hl : (ks.map f).length = ks.length := List.length_map ..
  refine ⟨fun a => ks[a.1]'(hl ▸ a.2), fun a b hab => ?_, fun i => ?_, fun a => ?_, fun w a => ?_⟩
  · exact Fin.ext ((List.Nodup.getElem_inj_iff hn).mp hab)
  · rw [List.mem_iff_getElem]
    constructor
    · rintro ⟨a, rfl⟩
      exact ⟨a.1, hl ▸ a.2, rfl⟩
    · rintro ⟨a, ha, rfl⟩
      exact ⟨⟨a, hl.symm ▸ ha⟩, rfl⟩
  · simp
  · rw [List.getD_eq_getElem?_getD, List.getElem?_eq_getElem (by simpa using hl ▸ a.2), Option.getD_some,
      List.getElem_map]

/-- The channels and resonances are those of a spin group, without channels that take no part. -/
structure Embeds (K : Constants) (E : ℝ) (option : BoundaryOption) (g : RGroup) (channels : List Channel)
    (resonances : List Resonance) (e : Fin channels.length → Fin g.n)
    (P S w phi : Fin channels.length → ℝ) : Prop where
  injective : Function.Injective e
  channel : ∀ a, channels[a] = g.channel (e a)
  incident : ∀ i, g.isIncident i → i ∈ Set.range e
  R : ∀ a b, g.R E (e a) (e b) = rMatrix channels resonances E a b
  outside : ∀ i j, i ∉ Set.range e ∨ j ∉ Set.range e → g.R E i j = 0
  own : ∀ i, g.own i ↔ option = .shiftFactor
  P : ∀ a, g.P (e a) = P a
  S : ∀ a, g.S (e a) = S a
  phase : ∀ a, g.isIncident (e a) → g.φ (e a) = phi a
  neutral : ∀ a, g.isIncident (e a) → w a = 0 ∧ coulombAt K (g.channel (e a)) E = 0

theorem normSq_exp_I (x : ℝ) : normSq (exp (I * x)) = 1 := by
  rw [normSq_eq_norm_sq, mul_comm, norm_exp_ofReal_mul_I, one_pow]

theorem normSq_collision {n : ℕ} (T : Matrix (Fin n) (Fin n) ℂ) (w phi : Fin n → ℝ) (c c' : Fin n) :
    normSq (collision T w phi c c') = normSq ((if c = c' then 1 else 0) + 2 * I * T c c') := by
  unfold collision
  rw [normSq_mul, normSq_mul]
  have h : ∀ x y : ℝ, normSq (exp (I * ((x : ℂ) - y))) = 1 := by
    intro x y
    rw [← ofReal_sub, normSq_exp_I]
  rw [h, h, one_mul, mul_one]

namespace Embeds

variable {K : Constants} {lib : CoulombLibrary} {E : ℝ} {option : BoundaryOption} {g : RGroup}
  {channels : List Channel} {resonances : List Resonance} {e : Fin channels.length → Fin g.n}
  {P S w phi : Fin channels.length → ℝ}

theorem isIncident (h : Embeds K E option g channels resonances e P S w phi) (a : Fin channels.length) :
    channels[a].isIncident = true ↔ g.isIncident (e a) := by
  unfold Channel.isIncident RGroup.isIncident
  rw [beq_iff_eq, h.channel]

theorem matrix (h : Embeds K E option g channels resonances e P S w phi)
    (hev : Evaluable option K lib channels resonances E P S w phi) :
    (1 - g.R E * Matrix.diagonal g.L).det ≠ 0 ∧
    (∀ a b, g.T E (e a) (e b) = tMatrix option channels resonances E P S a b) ∧
    ∀ i j, i ∉ Set.range e ∨ j ∉ Set.range e → g.T E i j = 0 := by
  have hL : ∀ a, g.L (e a) = logDerivative option channels P S a := by
    intro a
    unfold RGroup.L logDerivative
    rw [h.P]
    cases option with
    | shiftFactor => rw [if_pos ((h.own _).mpr rfl), zero_add]
    | constant =>
      rw [if_neg (fun h' => by cases (h.own _).mp h'), h.S, ← h.channel]
  obtain ⟨h1, h2, h3⟩ := Embedding.level h.injective h.R h.outside hL hev.invertible
  refine ⟨h1, fun a b => ?_, fun i j hij => ?_⟩
  · unfold RGroup.T tMatrix
    rw [Matrix.of_apply, Matrix.of_apply, h2, h.P, h.P]
    rfl
  · unfold RGroup.T
    rw [Matrix.of_apply, h3 i j hij, mul_zero, zero_mul]

theorem outsideU (h : Embeds K E option g channels resonances e P S w phi)
    (hev : Evaluable option K lib channels resonances E P S w phi) {i j : Fin g.n} (hi : i ∈ Set.range e)
    (hj : j ∉ Set.range e) : i ≠ j ∧ normSq (g.U K E i j) = 0 := by
  have hne : i ≠ j := by
    rintro rfl
    exact hj hi
  refine ⟨hne, ?_⟩
  unfold RGroup.U
  rw [normSq_collision, if_neg hne, (h.matrix hev).2.2 i j (.inr hj)]
  simp

theorem insideU (h : Embeds K E option g channels resonances e P S w phi)
    (hev : Evaluable option K lib channels resonances E P S w phi) (a b : Fin channels.length) :
    normSq (g.U K E (e a) (e b))
      = normSq (collision (tMatrix option channels resonances E P S) w phi a b) := by
  unfold RGroup.U
  rw [normSq_collision, normSq_collision, (h.matrix hev).2.1]
  simp only [h.injective.eq_iff]

theorem partialU (h : Embeds K E option g channels resonances e P S w phi)
    (hev : Evaluable option K lib channels resonances E P S w phi) {a b : Fin channels.length}
    (ha : g.isIncident (e a)) :
    normSq ((if e a = e b then exp (2 * I * coulombAt K (g.channel (e a)) E) else 0) - g.U K E (e a) (e b))
      = partialCrossSection (collision (tMatrix option channels resonances E P S) w phi) w a b := by
  unfold partialCrossSection
  by_cases hab : a = b
  · subst hab
    obtain ⟨h1, h2⟩ := h.neutral a ha
    unfold RGroup.U collision
    rw [(h.matrix hev).2.1, h1, h.phase a ha]
    dsimp only
    rw [h2]
    simp
  · rw [if_neg hab, if_neg (fun h' => hab (h.injective h')), zero_sub, zero_sub, normSq_neg, normSq_neg,
      h.insideU hev]

open Classical in
theorem into (h : Embeds K E option g channels resonances e P S w phi)
    (hev : Evaluable option K lib channels resonances E P S w phi) (out : PairID) :
    g.into K E out = ∑ a : Fin channels.length, if channels[a].isIncident then
      ∑ b : Fin channels.length, if channels[b].pair.id = out then
        partialCrossSection (collision (tMatrix option channels resonances E P S) w phi) w a b else 0
      else 0 := by
  unfold RGroup.into
  symm
  refine Fintype.sum_of_injective e h.injective _ _ (fun i hi => ?_) fun a => ?_
  · rw [if_neg fun h' => hi (h.incident i h')]
  · by_cases ha : g.isIncident (e a)
    · rw [if_pos ha, if_pos ((h.isIncident a).mpr ha)]
      refine Fintype.sum_of_injective e h.injective _ _ (fun j hj => ?_) fun b => ?_
      · obtain ⟨h1, h2⟩ := h.outsideU hev ⟨a, rfl⟩ hj
        rw [if_neg h1, zero_sub, normSq_neg, h2, ite_self]
      · rw [h.partialU hev ha, h.channel]
    · rw [if_neg ha, if_neg fun h' => ha ((h.isIncident a).mp h')]

theorem capture (h : Embeds K E option g channels resonances e P S w phi)
    (hev : Evaluable option K lib channels resonances E P S w phi) :
    g.capture K E = ∑ a : Fin channels.length, if channels[a].isIncident then
      captureCrossSection (collision (tMatrix option channels resonances E P S) w phi) a else 0 := by
  unfold RGroup.capture
  symm
  refine Fintype.sum_of_injective e h.injective _ _ (fun i hi => ?_) fun a => ?_
  · rw [if_neg fun h' => hi (h.incident i h')]
  · by_cases ha : g.isIncident (e a)
    · rw [if_pos ha, if_pos ((h.isIncident a).mpr ha)]
      unfold captureCrossSection
      congr 1
      refine Fintype.sum_of_injective e h.injective _ _ (fun j hj => ?_) fun b => ?_
      · exact (h.outsideU hev ⟨a, rfl⟩ hj).2
      · exact (h.insideU hev a b).symm
    · rw [if_neg ha, if_neg fun h' => ha ((h.isIncident a).mp h')]

/-- What a spin group contributes. -/
theorem contribution_eq (h : Embeds K E option g channels resonances e P S w phi)
    (hev : Evaluable option K lib channels resonances E P S w phi) {id : PairID} (hne : channels ≠ [])
    (hid : ∀ c ∈ channels, c.incident.id = id ∧ c.reaction = makeReactionID id c.pair.id ∧
      c.pair.id ≠ "capture".toList) (hcap : id ≠ "capture".toList) :
    contribution option K channels resonances E P S w phi (.elastic id)
      = incidentFactor K channels E * g.into K E id ∧
    contribution option K channels resonances E P S w phi (.transition id "capture".toList)
      = incidentFactor K channels E * g.capture K E ∧
    ∀ out, out ≠ id → out ≠ "capture".toList →
      contribution option K channels resonances E P S w phi (.transition id out)
        = incidentFactor K channels E * g.into K E out := by
  classical
  have hcapture : captureID channels = some (.transition id "capture".toList) := by
    cases channels with
    | nil => exact absurd rfl hne
    | cons c cs =>
      unfold captureID
      rw [List.head?_cons, Option.map_some, (hid c List.mem_cons_self).1]
  have key : ∀ (r : ReactionID) (out : PairID), some r ≠ captureID channels →
      (∀ c ∈ channels, c.reaction = r ↔ c.pair.id = out) →
      contribution option K channels resonances E P S w phi r
        = incidentFactor K channels E * g.into K E out := by
    intro r out h1 h2
    rw [h.into hev, Finset.mul_sum]
    unfold contribution
    refine Finset.sum_congr rfl fun a _ => ?_
    split
    · rw [if_neg (Ne.symm h1), add_zero, Finset.mul_sum]
      refine Finset.sum_congr rfl fun b _ => ?_
      simp only [h2 channels[b] (List.getElem_mem _), mul_ite, mul_zero]
    · rw [mul_zero]
  refine ⟨key _ _ ?_ ?_, ?_, fun out h1 h2 => key _ _ ?_ ?_⟩
  · rw [hcapture]
    simp
  · intro c hc
    rw [(hid c hc).2.1]
    unfold makeReactionID
    split
    · rename_i he
      simp [he]
    · rename_i he
      simp [Ne.symm he]
  · rw [h.capture hev, Finset.mul_sum]
    unfold contribution
    refine Finset.sum_congr rfl fun a _ => ?_
    by_cases ha : channels[a].isIncident = true
    · rw [if_pos ha, if_pos ha, if_pos hcapture, Finset.sum_eq_zero, zero_add]
      intro b _
      rw [if_neg]
      have := hid channels[b] (List.getElem_mem _)
      rw [this.2.1]
      unfold makeReactionID
      split
      · simp
      · intro h'
        exact this.2.2 (ReactionID.transition.inj h').2
    · rw [if_neg ha, if_neg ha, mul_zero]
  · rw [hcapture]
    simpa using h2
  · intro c hc
    rw [(hid c hc).2.1]
    unfold makeReactionID
    split
    · rename_i he
      simp [← he, Ne.symm h1]
    · simp

end Embeds

end Verif.Endf
