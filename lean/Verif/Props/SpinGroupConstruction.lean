import Verif.Lemmas.Evaluate

/-!
# Property C24: which spin groups are accepted
-/

namespace Verif

namespace Spec

/-- What a consistent set of channels and resonance table is. -/
structure ConsistentGroup (channels : List Channel) (table : ResonanceTable) : Prop where
  nonempty : channels ≠ []
  sameIncident : ∀ c ∈ channels, ∀ d ∈ channels, c.incident.id = d.incident.id
  uniqueIDs : (channels.map Channel.id).Nodup
  sameJpi : ∀ c ∈ channels, ∀ d ∈ channels,
    c.numbers.J = d.numbers.J ∧ c.numbers.parity = d.numbers.parity
  hasIncident : ∃ c ∈ channels, c.pair.id = c.incident.id
  sameTable : table.channels = channels.map Channel.id

end Spec

theorem verifyChannels_ok (channels : List Channel) :
    verifyChannels channels = .ok () ↔ channels ≠ [] ∧
      (∀ c ∈ channels, ∀ d ∈ channels, c.incident.id = d.incident.id) ∧
      (channels.map Channel.id).Nodup ∧
      (∀ c ∈ channels, ∀ d ∈ channels,
        c.numbers.J = d.numbers.J ∧ c.numbers.parity = d.numbers.parity) := by
  cases channels with
  | nil => simp [verifyChannels]
  | cons first rest =>
    unfold verifyChannels
    simp only
    have hdup : (∃ c ∈ first :: rest, 1 < (first :: rest).countP fun d => d.id == c.id) ↔
        ¬ ((first :: rest).map Channel.id).Nodup := by
      rw [List.nodup_iff_count_le_one]
      have hcount : ∀ a : Str, ((first :: rest).map Channel.id).count a
          = (first :: rest).countP fun d => d.id == a := by
        intro a
        rw [List.count_eq_countP, List.countP_map]
        rfl
      constructor
      · rintro ⟨c, _, hc⟩ h
        have := h c.id
        rw [hcount] at this
        omega
      · intro h
        push Not at h
        obtain ⟨a, ha⟩ := h
        have hmem : a ∈ (first :: rest).map Channel.id := by
          rw [← List.count_pos_iff]
          omega
        obtain ⟨c, hc, rfl⟩ := List.mem_map.mp hmem
        refine ⟨c, hc, ?_⟩
        rw [← hcount]
        exact ha
    have hinc : (first :: rest).countP (fun c => c.incident.id == first.incident.id)
          < (first :: rest).length ↔
        ¬ ∀ c ∈ first :: rest, ∀ d ∈ first :: rest, c.incident.id = d.incident.id := by
      have hle := List.countP_le_length (p := fun c : Channel => c.incident.id == first.incident.id)
        (l := first :: rest)
      rw [← not_iff_not, not_not, not_lt]
      constructor
      · intro h
        have heq := (List.countP_eq_length (p := fun c : Channel =>
          c.incident.id == first.incident.id)).mp (le_antisymm hle h)
        intro c hc d hd
        rw [beq_iff_eq.mp (heq c hc), beq_iff_eq.mp (heq d hd)]
      · intro h
        rw [(List.countP_eq_length (p := fun c : Channel =>
          c.incident.id == first.incident.id)).mpr]
        intro c hc
        exact beq_iff_eq.mpr (h c hc first (by simp))
    have hJ : (∃ c ∈ rest, c.numbers.J ≠ first.numbers.J ∨ c.numbers.parity ≠ first.numbers.parity) ↔
        ¬ ∀ c ∈ first :: rest, ∀ d ∈ first :: rest,
          c.numbers.J = d.numbers.J ∧ c.numbers.parity = d.numbers.parity := by
      constructor
      · rintro ⟨c, hc, hne⟩ h
        have := h c (List.mem_cons_of_mem _ hc) first (by simp)
        rcases hne with hne | hne
        · exact hne this.1
        · exact hne this.2
      · intro h
        by_contra hcon
        push Not at hcon
        apply h
        have hall : ∀ c ∈ first :: rest,
            c.numbers.J = first.numbers.J ∧ c.numbers.parity = first.numbers.parity := by
          intro c hc
          rcases List.mem_cons.mp hc with rfl | hc
          · exact ⟨rfl, rfl⟩
          · exact hcon c hc
        intro c hc d hd
        rw [(hall c hc).1, (hall c hc).2, (hall d hd).1, (hall d hd).2]
        exact ⟨rfl, rfl⟩
    by_cases h1 : ∀ c ∈ first :: rest, ∀ d ∈ first :: rest, c.incident.id = d.incident.id
    · rw [if_neg (fun h => hinc.mp h h1)]
      by_cases h2 : ((first :: rest).map Channel.id).Nodup
      · rw [if_neg (fun h => hdup.mp h h2)]
        by_cases h3 : ∀ c ∈ first :: rest, ∀ d ∈ first :: rest,
          c.numbers.J = d.numbers.J ∧ c.numbers.parity = d.numbers.parity
        · rw [if_neg (fun h => hJ.mp h h3)]
          simp only [true_iff]
          exact ⟨by simp, h1, h2, h3⟩
        · rw [if_pos (hJ.mpr h3)]
          simp only [reduceCtorEq, false_iff]
          rintro ⟨_, _, _, h⟩
          exact h3 h
      · rw [if_pos (hdup.mpr h2)]
        simp only [reduceCtorEq, false_iff]
        rintro ⟨_, _, h, _⟩
        exact h2 h
    · rw [if_pos (hinc.mpr h1)]
      simp only [reduceCtorEq, false_iff]
      rintro ⟨_, h, _⟩
      exact h1 h

theorem verifyChannels_error {channels : List Channel} {e : Failure}
    (h : verifyChannels channels = .error e) : e = .throws := by
  cases channels with
  | nil => simp [verifyChannels] at h; exact h.symm
  | cons first rest =>
    unfold verifyChannels at h
    simp only at h
    split at h
    · cases h; rfl
    · split at h
      · cases h; rfl
      · split at h
        · cases h; rfl
        · cases h

theorem verifyResonanceChannels_ok (channels : List Channel) (table : ResonanceTable) :
    verifyResonanceChannels channels table = .ok () ↔ table.channels = channels.map Channel.id := by
  unfold verifyResonanceChannels
  by_cases hlen : channels.length = table.channels.length
  · rw [if_neg (not_not.mpr hlen)]
    have key : ∀ a b : List Str, a.length = b.length → ((∀ p ∈ a.zip b, p.1 = p.2) ↔ b = a) := by
      intro a
      induction a with
      | nil =>
        intro b hb
        cases b with
        | nil => simp
        | cons => simp at hb
      | cons x a ih =>
        intro b hb
        cases b with
        | nil => simp at hb
        | cons y b =>
          simp only [List.length_cons, add_left_inj] at hb
          simp only [List.zip_cons_cons, List.mem_cons, forall_eq_or_imp, List.cons.injEq, ih b hb,
            eq_comm (a := x)]
    rw [← key _ _ (by simpa using hlen)]
    by_cases h : ∃ p ∈ (channels.map Channel.id).zip table.channels, p.1 ≠ p.2
    · rw [if_pos h]
      simp only [reduceCtorEq, false_iff]
      intro hall
      obtain ⟨p, hp, hne⟩ := h
      exact hne (hall p hp)
    · rw [if_neg h]
      simp only [true_iff]
      push Not at h
      exact h
  · rw [if_pos hlen]
    simp only [reduceCtorEq, false_iff]
    intro h
    apply hlen
    rw [h, List.length_map]

theorem verifyResonanceChannels_error {channels : List Channel} {table : ResonanceTable}
    {e : Failure} (h : verifyResonanceChannels channels table = .error e) : e = .throws := by
  unfold verifyResonanceChannels at h
  split at h
  · cases h; rfl
  · split at h
    · cases h; rfl
    · cases h

theorem determineIncidentChannels_eq_nil (channels : List Channel) :
    (determineIncidentChannels channels).length ≠ 0 ↔
      ∃ c ∈ channels, c.pair.id = c.incident.id := by
  unfold determineIncidentChannels
  rw [Ne, List.length_eq_zero_iff, List.filter_eq_nil_iff]
  push Not
  constructor
  · rintro ⟨i, _, hi⟩
    refine ⟨channels[i], List.getElem_mem _, ?_⟩
    simpa [Channel.isIncident] using hi
  · rintro ⟨c, hc, h⟩
    obtain ⟨i, hi, rfl⟩ := List.getElem_of_mem hc
    refine ⟨⟨i, hi⟩, List.mem_finRange _, ?_⟩
    simpa [Channel.isIncident] using h

theorem makeSpinGroup_nil (table : ResonanceTable) :
    makeSpinGroup [] table = .error .undefined := rfl

theorem makeSpinGroup_cons (first : Channel) (rest : List Channel) (table : ResonanceTable) :
    makeSpinGroup (first :: rest) table =
      (do
        verifyChannels (first :: rest)
        verifyIncidentChannels (determineIncidentChannels (first :: rest))
        verifyResonanceChannels (first :: rest) table
        pure ⟨first :: rest, (first :: rest).map Channel.reaction ++
          [.transition first.incident.id "capture".toList],
          determineIncidentChannels (first :: rest), table⟩) := rfl

/-- C24, the accepted inputs: exactly the consistent ones; the spin group has the given channels and
table, and as reactions those of the channels followed by capture. -/
theorem C24_accepted (channels : List Channel) (table : ResonanceTable) :
    (∃ g, makeSpinGroup channels table = .ok g) ↔ Spec.ConsistentGroup channels table := by
  cases channels with
  | nil =>
    constructor
    · rintro ⟨g, hg⟩
      rw [makeSpinGroup_nil] at hg
      cases hg
    · intro h
      exact absurd rfl h.nonempty
  | cons first rest =>
    rw [makeSpinGroup_cons]
    simp only [bind, Except.bind]
    constructor
    · rintro ⟨g, hg⟩
      split at hg
      · cases hg
      rename_i hv
      split at hg
      · cases hg
      rename_i hi
      split at hg
      · cases hg
      rename_i hr
      obtain ⟨h1, h2, h3, h4⟩ := (verifyChannels_ok _).mp hv
      refine ⟨h1, h2, h3, h4, ?_, (verifyResonanceChannels_ok _ _).mp hr⟩
      rw [← determineIncidentChannels_eq_nil]
      unfold verifyIncidentChannels at hi
      split at hi
      · cases hi
      · assumption
    · intro h
      rw [(verifyChannels_ok _).mpr ⟨h.nonempty, h.sameIncident, h.uniqueIDs, h.sameJpi⟩,
        (verifyResonanceChannels_ok _ _).mpr h.sameTable]
      have := (determineIncidentChannels_eq_nil (first :: rest)).mpr h.hasIncident
      simp [verifyIncidentChannels, this, pure, Except.pure]

/-- C24, what an accepted spin group consists of. -/
theorem C24_contents {channels : List Channel} {table : ResonanceTable} {g : SpinGroup}
    (h : makeSpinGroup channels table = .ok g) :
    g.channels = channels ∧ g.table = table ∧
      (∃ first, channels.head? = some first ∧
        g.reactions = channels.map Channel.reaction ++
          [.transition first.incident.id "capture".toList]) ∧
      (∀ i : Fin g.channels.length, i ∈ g.incident ↔ g.channels[i].pair.id = g.channels[i].incident.id) ∧
      g.incident.Pairwise (· < ·) := by
  obtain ⟨hb, rfl, rfl⟩ := SpinGroup.Built.of_make h
  obtain ⟨h1, first, rest, h2, h3, h4⟩ := hb.incident
  refine ⟨rfl, rfl, ⟨first, by rw [h2]; rfl, h3⟩, ?_, ?_⟩
  · intro i
    rw [h1]
    simp [determineIncidentChannels, Channel.isIncident]
  · rw [h1]
    exact (List.pairwise_lt_finRange _).filter _

/-- The statement of C24 as written: every inconsistent input raises an exception. -/
def C24_claim : Prop :=
  ∀ channels table, ¬ Spec.ConsistentGroup channels table →
    makeSpinGroup channels table = .error .throws

/-- C24 fails for an empty list of channels: `front()` is called on it before the check. -/
theorem C24_disproved : ¬ C24_claim := by
  intro h
  have h1 := h [] ⟨[], []⟩ (fun h => h.nonempty rfl)
  rw [makeSpinGroup_nil] at h1
  cases h1

/-- C24 except for the empty list of channels, where the behaviour is undefined. -/
theorem C24_partial (channels : List Channel) (table : ResonanceTable) :
    (channels ≠ [] → ¬ Spec.ConsistentGroup channels table →
      makeSpinGroup channels table = .error .throws) ∧
    (channels = [] → makeSpinGroup channels table = .error .undefined) := by
  refine ⟨?_, ?_⟩
  · intro hne hcon
    cases hm : makeSpinGroup channels table with
    | ok g => exact absurd ((C24_accepted _ _).mp ⟨g, hm⟩) hcon
    | error e =>
      cases channels with
      | nil => exact absurd rfl hne
      | cons first rest =>
        rw [makeSpinGroup_cons] at hm
        simp only [bind, Except.bind] at hm
        split at hm
        · rename_i hv
          cases hm
          rw [verifyChannels_error hv]
        split at hm
        · rename_i hv
          cases hm
          unfold verifyIncidentChannels at hv
          split at hv
          · cases hv; rfl
          · cases hv
        split at hm
        · rename_i hv
          cases hm
          rw [verifyResonanceChannels_error hv]
        · cases hm
  · rintro rfl
    rfl

end Verif
