import Verif.Lemmas.System
import Verif.Props.ChannelData
import Verif.Props.SpinGroup

/-!
# Properties C21, C22, C23, C25 and C40 for compound systems
-/

namespace Verif

/-! ## C25 -/

namespace Spec

/-- What a consistent set of channel data with one J and parity is: at most one eliminated channel;
the others are not empty, share the incident pair, J and parity, have different identifiers and
include the incident pair. -/
structure ConsistentData (data : List ChannelData) : Prop where
  oneEliminated : data.countP ChannelData.eliminated ≤ 1
  nonempty : ∃ d ∈ data, d.eliminated = false
  sameIncident : ∀ d ∈ data, ∀ e ∈ data, d.eliminated = false → e.eliminated = false →
    d.channel.incident.id = e.channel.incident.id
  uniqueIDs : ((data.filter fun d => ¬ d.eliminated).map fun d => d.channel.id).Nodup
  sameJpi : ∀ d ∈ data, ∀ e ∈ data, d.eliminated = false → e.eliminated = false →
    d.channel.numbers.J = e.channel.numbers.J ∧
      d.channel.numbers.parity = e.channel.numbers.parity
  hasIncident : ∃ d ∈ data, d.eliminated = false ∧ d.channel.pair.id = d.channel.incident.id

end Spec

/-- C25, one group: a spin group is made from channel data exactly when they are consistent. -/
theorem C25_group_accepted (data : List ChannelData)
    (hlen : ∀ d ∈ data, d.energies.length = d.widths.length) :
    (∃ g, makeSpinGroupFromData data = .ok g) ↔ Spec.ConsistentData data := by
  have hkept : ∀ {d}, d ∈ data.filter (fun d => ¬ d.eliminated) ↔ d ∈ data ∧ d.eliminated = false := by
    intro d
    rw [List.mem_filter]
    simp
  by_cases hcount : data.countP ChannelData.eliminated ≤ 1
  · obtain ⟨t, ht⟩ := (C26_accepted data).1 hcount
    have h1 := (C26_contents hlen ht).1
    have hch := makeChannels_eq hcount
    unfold makeSpinGroupFromData
    simp only [ht, bind, Except.bind]
    rw [hch, ChannelData.kept, C24_accepted]
    constructor
    · intro h
      obtain ⟨k1, k2, k3, k4, k5, k6⟩ := h
      refine ⟨hcount, ?_, ?_, ?_, ?_, ?_⟩
      · obtain ⟨c, hc⟩ := List.exists_mem_of_ne_nil _ k1
        obtain ⟨d, hd, -⟩ := List.mem_map.mp hc
        exact ⟨d, (hkept.mp hd).1, (hkept.mp hd).2⟩
      · intro d hd e he hd' he'
        exact k2 _ (List.mem_map_of_mem (hkept.mpr ⟨hd, hd'⟩)) _
          (List.mem_map_of_mem (hkept.mpr ⟨he, he'⟩))
      · rw [List.map_map] at k3
        exact k3
      · intro d hd e he hd' he'
        exact k4 _ (List.mem_map_of_mem (hkept.mpr ⟨hd, hd'⟩)) _
          (List.mem_map_of_mem (hkept.mpr ⟨he, he'⟩))
      · obtain ⟨c, hc, hc'⟩ := k5
        obtain ⟨d, hd, rfl⟩ := List.mem_map.mp hc
        exact ⟨d, (hkept.mp hd).1, (hkept.mp hd).2, hc'⟩
    · rintro ⟨-, k1, k2, k3, k4, k5⟩
      refine ⟨?_, ?_, ?_, ?_, ?_, ?_⟩
      · obtain ⟨d, hd, hd'⟩ := k1
        exact List.ne_nil_of_mem (List.mem_map_of_mem (hkept.mpr ⟨hd, hd'⟩))
      · intro c hc c' hc'
        obtain ⟨d, hd, rfl⟩ := List.mem_map.mp hc
        obtain ⟨e, he, rfl⟩ := List.mem_map.mp hc'
        obtain ⟨hd1, hd2⟩ := hkept.mp hd
        obtain ⟨he1, he2⟩ := hkept.mp he
        exact k2 d hd1 e he1 hd2 he2
      · rw [List.map_map]
        exact k3
      · intro c hc c' hc'
        obtain ⟨d, hd, rfl⟩ := List.mem_map.mp hc
        obtain ⟨e, he, rfl⟩ := List.mem_map.mp hc'
        obtain ⟨hd1, hd2⟩ := hkept.mp hd
        obtain ⟨he1, he2⟩ := hkept.mp he
        exact k4 d hd1 e he1 hd2 he2
      · obtain ⟨d, hd, hd', h⟩ := k5
        exact ⟨_, List.mem_map_of_mem (hkept.mpr ⟨hd, hd'⟩), h⟩
      · rw [h1, List.map_map]
        rfl
  · constructor
    · rintro ⟨g, hg⟩
      unfold makeSpinGroupFromData at hg
      rw [(C26_accepted data).2 (by omega)] at hg
      cases hg
    · intro h
      exact absurd h.oneEliminated hcount

/-- C25, one group: its channels are those that are not eliminated, in order, and its table is the
one made from the data. -/
theorem C25_group_contents {data : List ChannelData} {g : SpinGroup}
    (h : makeSpinGroupFromData data = .ok g) :
    g.Built ∧ g.channels = (data.filter fun d => ¬ d.eliminated).map ChannelData.channel ∧
      makeResonanceTable data = .ok g.table := by
  unfold makeSpinGroupFromData at h
  simp only [bind, Except.bind] at h
  split at h
  · cases h
  rename_i t ht
  have hcount : data.countP ChannelData.eliminated ≤ 1 := by
    by_contra hc
    rw [(C26_accepted data).2 (by omega)] at ht
    cases ht
  rw [makeChannels_eq hcount] at h
  obtain ⟨hb, h1, h2⟩ := SpinGroup.Built.of_make h
  exact ⟨hb, h1, by rw [h2, ht]⟩

/-- C25, one group: data that consist of an eliminated channel only lead to undefined behaviour
instead of an exception. -/
theorem C25_only_eliminated (d : ChannelData) (h : d.eliminated = true) :
    makeSpinGroupFromData [d] = .error .undefined := by
  have hc : [d].countP ChannelData.eliminated ≤ 1 := by simp [h]
  obtain ⟨t, ht⟩ := (C26_accepted [d]).1 hc
  unfold makeSpinGroupFromData
  simp only [ht, bind, Except.bind]
  rw [makeChannels_eq hc, ChannelData.kept, List.filter_cons_of_neg (by simp [h])]
  rfl

theorem jpi_eq {d e : ChannelData} : d.jpi = e.jpi ↔
    d.channel.numbers.J = e.channel.numbers.J ∧
      d.channel.numbers.parity = e.channel.numbers.parity := by
  unfold ChannelData.jpi
  rw [EmbeddingLike.apply_eq_iff_eq, Prod.mk.injEq]

theorem verifySpinGroups_ok {groups : List SpinGroup} {jpis : List (ℚ ×ₗ ℤ)}
    (hne : groups ≠ []) (hs : jpis.Pairwise (· < ·))
    (h : List.Forall₂ (fun x (g : SpinGroup) => g.channels ≠ [] ∧ ∀ c ∈ g.channels,
      toLex (c.numbers.J, c.numbers.parity) = x) jpis groups) :
    verifySpinGroups groups = .ok () := by
  unfold verifySpinGroups
  rw [if_neg (by rwa [List.length_eq_zero_iff]), if_neg, if_neg]
  · rintro ⟨g, hg, c, hc, h1⟩
    have hle : groups.countP (fun h => h.channels.head?.any
        fun d => d.numbers.J == c.numbers.J && d.numbers.parity == c.numbers.parity)
        ≤ jpis.countP (fun x => x = toLex (c.numbers.J, c.numbers.parity)) := by
      clear h1 hg hc hne hs
      induction h with
      | nil => simp
      | @cons x g' jpis gs h1 _ ih =>
        rw [List.countP_cons, List.countP_cons]
        refine Nat.add_le_add ih ?_
        split
        · rename_i ha
          rw [if_pos]
          rw [Option.any_eq_true] at ha
          obtain ⟨d, hd, ha⟩ := ha
          simp only [Bool.and_eq_true, beq_iff_eq] at ha
          simp only [decide_eq_true_eq]
          rw [← h1.2 d (List.mem_of_mem_head? hd), ha.1, ha.2]
        · omega
    have hnd : jpis.Nodup := hs.imp fun h => h.ne
    have := List.nodup_iff_count_le_one.mp hnd (toLex (c.numbers.J, c.numbers.parity))
    rw [List.count_eq_countP] at this
    have h2 : jpis.countP (fun x => decide (x = toLex (c.numbers.J, c.numbers.parity)))
      = jpis.countP (fun x => x == toLex (c.numbers.J, c.numbers.parity)) := by
      congr 1
      funext x
      rw [Bool.eq_iff_iff, decide_eq_true_iff, beq_iff_eq]
    omega
  · rintro ⟨g, hg, h0⟩
    clear hne hs
    induction h with
    | nil => cases hg
    | cons h1 _ ih =>
      rcases List.mem_cons.mp hg with rfl | hg
      · exact h1.1 h0
      · exact ih hg

/-- Spin groups made for a list of J and parity have those. -/
theorem makeSpinGroups_forall {channels : List ChannelData} {groups : List SpinGroup}
    (h : makeSpinGroups channels = .ok groups) :
    List.Forall₂ (fun x g =>
      makeSpinGroupFromData (channels.filter fun d => d.jpi == x) = .ok g)
      (sortUnique (channels.map ChannelData.jpi)) groups := mapM_ok.mp h

theorem makeSpinGroups_jpi {channels : List ChannelData} {x : ℚ ×ₗ ℤ} {g : SpinGroup}
    (h : makeSpinGroupFromData (channels.filter fun d => d.jpi == x) = .ok g) :
    g.channels ≠ [] ∧ ∀ c ∈ g.channels, toLex (c.numbers.J, c.numbers.parity) = x := by
  obtain ⟨hb, hc, -⟩ := C25_group_contents h
  refine ⟨(((C24_accepted g.channels g.table).mp ⟨g, hb⟩)).nonempty, ?_⟩
  intro c hc'
  rw [hc] at hc'
  obtain ⟨d, hd, rfl⟩ := List.mem_map.mp hc'
  have := (List.mem_filter.mp (List.mem_filter.mp hd).1).2
  exact beq_iff_eq.mp this

/-- C25: a compound system is made from channel data exactly when there are any and those of each J
and parity are consistent; the check on the spin groups itself never fails. -/
theorem C25_accepted (initial : (g : SpinGroup) → MatrixCache g.channels.length)
    (channels : List ChannelData) (hlen : ∀ d ∈ channels, d.energies.length = d.widths.length) :
    (∃ s, makeCompoundSystemFromData initial channels = .ok s) ↔
      channels ≠ [] ∧ ∀ d ∈ channels, Spec.ConsistentData (channels.filter fun e =>
        e.channel.numbers.J = d.channel.numbers.J ∧
          e.channel.numbers.parity = d.channel.numbers.parity) := by
  have hfil : ∀ d : ChannelData, (channels.filter fun e =>
        decide (e.channel.numbers.J = d.channel.numbers.J ∧
          e.channel.numbers.parity = d.channel.numbers.parity))
      = channels.filter fun e => e.jpi == d.jpi := by
    intro d
    apply List.filter_congr
    intro e _
    rw [Bool.eq_iff_iff, decide_eq_true_iff, ← jpi_eq, beq_iff_eq]
  have hacc : ∀ x, (∃ g, makeSpinGroupFromData (channels.filter fun d => d.jpi == x) = .ok g) ↔
      Spec.ConsistentData (channels.filter fun d => d.jpi == x) := fun x =>
    C25_group_accepted _ fun d hd => hlen d (List.mem_filter.mp hd).1
  constructor
  · rintro ⟨s, hs⟩
    unfold makeCompoundSystemFromData at hs
    simp only [bind, Except.bind] at hs
    split at hs
    · cases hs
    rename_i groups hg
    have hf := makeSpinGroups_forall hg
    refine ⟨?_, fun d hd => ?_⟩
    · rintro rfl
      cases hf
      unfold makeCompoundSystem at hs
      simp [verifySpinGroups] at hs
    · rw [hfil, ← hacc]
      obtain h := mapM_exists.mp ⟨groups, hg⟩ d.jpi
        (mem_sortUnique.mpr (List.mem_map_of_mem hd))
      exact h
  · rintro ⟨hne, hall⟩
    obtain ⟨groups, hg⟩ : ∃ groups, makeSpinGroups channels = .ok groups := by
      refine mapM_exists.mpr fun x hx => ?_
      obtain ⟨d, hd, rfl⟩ := List.mem_map.mp (mem_sortUnique.mp hx)
      rw [hacc, ← hfil]
      exact hall d hd
    have hf := makeSpinGroups_forall hg
    have hne' : groups ≠ [] := by
      rintro rfl
      obtain ⟨d, hd⟩ := List.exists_mem_of_ne_nil _ hne
      have : d.jpi ∈ sortUnique (channels.map ChannelData.jpi) :=
        mem_sortUnique.mpr (List.mem_map_of_mem hd)
      have hlen := hf.length_eq
      rw [List.length_nil, List.length_eq_zero_iff] at hlen
      rw [hlen] at this
      cases this
    unfold makeCompoundSystemFromData makeCompoundSystem
    simp only [bind, Except.bind, hg, List.map_map]
    rw [show (GroupState.group ∘ fun g => (⟨g, initial g⟩ : GroupState)) = id from rfl, List.map_id,
      verifySpinGroups_ok hne' (sortUnique_sorted _) (hf.imp fun x g h => makeSpinGroups_jpi h)]
    exact ⟨_, rfl⟩

/-- C25: the spin groups of a compound system made from channel data. There is one for each J and
parity that occurs, in increasing order; its channels are those of the data with that J and parity
that are not eliminated, in the order of the data; its table is the one made from those data. -/
theorem C25_contents {initial : (g : SpinGroup) → MatrixCache g.channels.length}
    {channels : List ChannelData} {s : CompoundSystem}
    (h : makeCompoundSystemFromData initial channels = .ok s) :
    ∃ jpis : List (ℚ ×ₗ ℤ), jpis.Pairwise (· < ·) ∧
      (∀ J parity, toLex (J, parity) ∈ jpis ↔ ∃ d ∈ channels,
        d.channel.numbers.J = J ∧ d.channel.numbers.parity = parity) ∧
      List.Forall₂ (fun x (state : GroupState) =>
        state.group.Built ∧ state.cache = initial state.group ∧
        state.group.channels = (channels.filter fun d => ¬ d.eliminated ∧
          toLex (d.channel.numbers.J, d.channel.numbers.parity) = x).map ChannelData.channel ∧
        makeResonanceTable (channels.filter fun d =>
          toLex (d.channel.numbers.J, d.channel.numbers.parity) = x) = .ok state.group.table)
        jpis s := by
  unfold makeCompoundSystemFromData at h
  simp only [bind, Except.bind] at h
  split at h
  · cases h
  rename_i groups hg
  have hf := makeSpinGroups_forall hg
  refine ⟨sortUnique (channels.map ChannelData.jpi), sortUnique_sorted _, ?_, ?_⟩
  · intro J parity
    rw [mem_sortUnique, List.mem_map]
    refine exists_congr fun d => and_congr_right fun _ => ?_
    unfold ChannelData.jpi
    rw [EmbeddingLike.apply_eq_iff_eq, Prod.mk.injEq]
  · have hs : s = groups.map fun g => ⟨g, initial g⟩ := by
      unfold makeCompoundSystem at h
      split at h
      · cases h
      · exact (Except.ok.inj h).symm
    rw [hs, List.forall₂_map_right_iff]
    refine hf.imp fun x g hx => ?_
    obtain ⟨h1, h2, h3⟩ := C25_group_contents hx
    refine ⟨h1, rfl, ?_, ?_⟩
    · simp only
      rw [h2, List.filter_filter]
      congr 1
      apply List.filter_congr
      intro d _
      rw [Bool.eq_iff_iff]
      simp [ChannelData.jpi]
    · rw [← h3]
      congr 1
      apply List.filter_congr
      intro d _
      rw [Bool.eq_iff_iff]
      simp [ChannelData.jpi]

/-! ## C22 -/

section

variable {option : BoundaryOption} {K : Constants} {lib : CoulombLibrary} {E : ℝ}

/-- C22, compound systems: for each reaction the result is the earlier content of the map plus the
values that the groups give when evaluated on their own into an empty map. -/
theorem C22_system {s s' : CompoundSystem} (hb : ∀ st ∈ s, st.group.Built)
    {result result' : CrossSectionMap}
    (h : CompoundSystem.evaluate option K lib E s result = .ok (result', s')) :
    ∃ parts : List CrossSectionMap,
      List.Forall₂ (fun (st : GroupState) m => ∃ cache,
        st.group.evaluate option K lib E st.cache (fun _ => none) = .ok (m, cache)) s parts ∧
      ∀ id, result' id = if ∃ m ∈ parts, (m id).isSome then
        some ((result id).getD 0 + (parts.map fun m => (m id).getD 0).sum) else result id := by
  induction s generalizing result s' with
  | nil =>
    rw [evaluate_nil] at h
    cases h
    exact ⟨[], .nil, fun id => by simp⟩
  | cons st rest ih =>
    obtain ⟨r, c, rest', h1, h2, rfl⟩ := evaluate_cons_ok.mp h
    obtain ⟨parts, hp, hid⟩ := ih (fun st hst => hb st (List.mem_cons_of_mem _ hst)) h2
    obtain ⟨m, hm⟩ := evaluate_map h1 fun _ => none
    have hg := hb st List.mem_cons_self
    refine ⟨m :: parts, .cons ⟨c, hm⟩ hp, fun id => ?_⟩
    obtain ⟨P, S, w, phi, hev, hv⟩ := evaluate_ok hg h1
    obtain ⟨P', S', w', phi', hev', hv'⟩ := evaluate_ok hg hm
    have hcon := Evaluable_contribution hev hev' id
    have hm' := hv' id
    have hr' := hv id
    rw [hid id]
    simp only [List.exists_mem_cons_iff, List.map_cons, List.sum_cons]
    by_cases hid1 : id ∈ st.group.reactions
    · rw [if_pos hid1] at hm' hr'
      rw [if_pos (Or.inl (by rw [hm']; rfl)), hm', hr', hcon]
      split
      · simp only [Option.getD_some, Option.getD_none]
        ring_nf
      · rename_i hno
        have : (parts.map fun m => (m id).getD 0).sum = 0 := by
          apply List.sum_eq_zero
          intro x hx
          obtain ⟨m', hm1, rfl⟩ := List.mem_map.mp hx
          have : m' id = none := by
            by_contra hne
            exact hno ⟨m', hm1, Option.isSome_iff_ne_none.mpr hne⟩
          rw [this]
          rfl
        rw [this]
        simp
    · rw [if_neg hid1] at hm' hr'
      rw [hm', hr']
      simp

/-- C21, compound systems: no entry of the map is ever lowered by an evaluation. -/
theorem C21_system {s s' : CompoundSystem} (hb : ∀ st ∈ s, st.group.Built)
    (hspin : ∀ st ∈ s, ∀ c ∈ st.group.channels, 0 ≤ c.spinFactor) {result result' : CrossSectionMap}
    (h : CompoundSystem.evaluate option K lib E s result = .ok (result', s')) (id : ReactionID) :
    (result id).getD 0 ≤ (result' id).getD 0 := by
  obtain ⟨parts, h1, h2⟩ := C22_system hb h
  have h3 : 0 ≤ (parts.map fun m => (m id).getD 0).sum := by
    clear h h2
    induction h1 with
    | nil => simp
    | cons hv _ ih =>
      obtain ⟨cache, hv⟩ := hv
      rw [List.map_cons, List.sum_cons]
      exact add_nonneg (C21_nonneg (hb _ List.mem_cons_self) (hspin _ List.mem_cons_self) hv id)
        (ih (fun st hst => hb st (List.mem_cons_of_mem _ hst))
          fun st hst => hspin st (List.mem_cons_of_mem _ hst))
  rw [h2 id]
  split
  · rw [Option.getD_some]
    linarith
  · exact le_rfl

/-- C22: the order of the spin groups does not matter, neither for success nor for the result. -/
theorem C22_system_order {s t s' : CompoundSystem} (hperm : s.Perm t)
    (hb : ∀ st ∈ s, st.group.Built) {result result' : CrossSectionMap}
    (h : CompoundSystem.evaluate option K lib E s result = .ok (result', s')) :
    ∃ t', CompoundSystem.evaluate option K lib E t result = .ok (result', t') := by
  obtain ⟨-, hall⟩ := evaluate_system_groups h
  obtain ⟨⟨result₂, t'⟩, ht⟩ := evaluate_system_exists (s := t) (fun st hst =>
    hall st (hperm.mem_iff.mpr hst)) result
  refine ⟨t', ?_⟩
  rw [ht]
  congr 2
  obtain ⟨parts, hp, h1⟩ := C22_system hb h
  obtain ⟨parts₂, hp₂, h2⟩ := C22_system (fun st hst => hb st (hperm.mem_iff.mpr hst)) ht
  have hfun : ∀ (u : CompoundSystem) (ps : List CrossSectionMap),
      List.Forall₂ (fun (st : GroupState) m => ∃ cache,
        st.group.evaluate option K lib E st.cache (fun _ => none) = .ok (m, cache)) u ps →
      ps = u.map fun st => match st.group.evaluate option K lib E st.cache (fun _ => none) with
        | .ok p => p.1
        | .error _ => fun _ => none := by
    intro u ps hu
    induction hu with
    | nil => rfl
    | cons h1 _ ih =>
      obtain ⟨c, h1⟩ := h1
      rw [List.map_cons, h1, ← ih]
  have hpp : parts.Perm parts₂ := by
    rw [hfun _ _ hp, hfun _ _ hp₂]
    exact hperm.map _
  funext id
  rw [h1 id, h2 id]
  have e1 : (∃ m ∈ parts₂, (m id).isSome) ↔ ∃ m ∈ parts, (m id).isSome := by
    simp only [hpp.mem_iff]
  rw [(hpp.map fun m : CrossSectionMap => (m id).getD 0).sum_eq]
  simp only [e1]

/-- C22: evaluating T-matrix elements overwrites a fixed set of entries with fixed values and leaves
the others as they were. -/
theorem C22_system_tMatrix {s s' : CompoundSystem} {m m' : Str → Option ℂ}
    (h : CompoundSystem.evaluateTMatrix option K lib E s m = .ok (m', s')) :
    ∃ p : Str → Option ℂ, (m' = fun k => (p k).or (m k)) ∧ ∀ other,
      CompoundSystem.evaluateTMatrix option K lib E s other
        = .ok (fun k => (p k).or (other k), s') := by
  induction s generalizing m m' s' with
  | nil =>
    cases h
    exact ⟨fun _ => none, rfl, fun other => rfl⟩
  | cons st rest ih =>
    rw [CompoundSystem.evaluateTMatrix] at h
    simp only [bind, Except.bind] at h
    split at h
    · cases h
    rename_i v hv
    split at h
    · cases h
    rename_i q hq
    simp only [pure, Except.pure, Except.ok.injEq, Prod.mk.injEq] at h
    obtain ⟨p, h1, h2⟩ := evaluateTMatrix_override (m' := v.1) (cache' := v.2) hv
    obtain ⟨p', h3, h4⟩ := ih (m' := q.1) (s' := q.2) hq
    refine ⟨fun k => (p' k).or (p k), ?_, fun other => ?_⟩
    · rw [← h.1, h3, h1]
      funext k
      rw [Option.or_assoc]
    · rw [CompoundSystem.evaluateTMatrix]
      simp only [bind, Except.bind, h2, h4, pure, Except.pure, ← h.2, Option.or_assoc]

/-! ## C23 -/

theorem evaluateTMatrix_groups {s s' : CompoundSystem} {m m' : Str → Option ℂ}
    (h : CompoundSystem.evaluateTMatrix option K lib E s m = .ok (m', s')) :
    s'.map GroupState.group = s.map GroupState.group := by
  induction s generalizing m m' s' with
  | nil =>
    cases h
    rfl
  | cons st rest ih =>
    rw [CompoundSystem.evaluateTMatrix] at h
    simp only [bind, Except.bind] at h
    split at h
    · cases h
    · split at h
      · cases h
      · rename_i q hq
        simp only [pure, Except.pure, Except.ok.injEq, Prod.mk.injEq] at h
        rw [← h.2, List.map_cons, List.map_cons, ih (m' := q.1) (s' := q.2) hq]


/-- C23, compound systems: two systems with the same groups, whatever their groups remember of earlier
evaluations, give the same outcome, failures included. -/
theorem C23_system {s t : CompoundSystem}
    (h : s.map GroupState.group = t.map GroupState.group) (E : ℝ) (result : CrossSectionMap)
    (tresult : Str → Option ℂ) :
    CompoundSystem.evaluate option K lib E s result
      = CompoundSystem.evaluate option K lib E t result ∧
    CompoundSystem.evaluateTMatrix option K lib E s tresult
      = CompoundSystem.evaluateTMatrix option K lib E t tresult := by
  induction s generalizing t result tresult with
  | nil =>
    cases t with
    | nil => exact ⟨rfl, rfl⟩
    | cons => simp at h
  | cons a s ih =>
    cases t with
    | nil => simp at h
    | cons b t =>
      simp only [List.map_cons, List.cons.injEq] at h
      obtain ⟨h1, h2⟩ := h
      obtain ⟨ga, ca⟩ := a
      obtain ⟨gb, cb⟩ := b
      simp only at h1
      subst h1
      obtain ⟨e1, e2⟩ := C23_history_independent option K lib ga E ca cb result tresult
      constructor
      · rw [CompoundSystem.evaluate, CompoundSystem.evaluate]
        simp only [e1]
        cases ga.evaluate option K lib E cb result with
        | error e => rfl
        | ok p =>
          simp only [bind, Except.bind]
          rw [(ih h2 p.1 tresult).1]
      · rw [CompoundSystem.evaluateTMatrix, CompoundSystem.evaluateTMatrix]
        simp only [e2]
        cases ga.evaluateTMatrix option K lib E cb tresult with
        | error e => rfl
        | ok p =>
          simp only [bind, Except.bind]
          rw [(ih h2 result p.1).2]

/-- C22: evaluating T-matrix elements of a compound system a second time changes nothing. -/
theorem C22_system_tMatrix_idempotent {s s' : CompoundSystem} {m m' : Str → Option ℂ}
    (h : CompoundSystem.evaluateTMatrix option K lib E s m = .ok (m', s')) :
    CompoundSystem.evaluateTMatrix option K lib E s' m' = .ok (m', s') := by
  obtain ⟨p, h1, h2⟩ := C22_system_tMatrix h
  rw [(C23_system (evaluateTMatrix_groups h) E (fun _ => none) m').2, h2 m']
  congr 2
  rw [h1]
  funext k
  rw [← Option.or_assoc, Option.or_self]

/-- The states of a compound system after some calls. A call that fails may leave anything in the
matrices of the groups. -/
inductive Reachable (option : BoundaryOption) (K : Constants) (lib : CoulombLibrary)
    (s : CompoundSystem) : CompoundSystem → Prop
  | start : Reachable option K lib s s
  | evaluate {t t' : CompoundSystem} {E : ℝ} {m m' : CrossSectionMap} :
      Reachable option K lib s t →
      CompoundSystem.evaluate option K lib E t m = .ok (m', t') → Reachable option K lib s t'
  | evaluateTMatrix {t t' : CompoundSystem} {E : ℝ} {m m' : Str → Option ℂ} :
      Reachable option K lib s t →
      CompoundSystem.evaluateTMatrix option K lib E t m = .ok (m', t') → Reachable option K lib s t'
  | failed {t t' : CompoundSystem} {E : ℝ} {m : CrossSectionMap} {e : Failure} :
      Reachable option K lib s t → CompoundSystem.evaluate option K lib E t m = .error e →
      t'.map GroupState.group = t.map GroupState.group → Reachable option K lib s t'
  | failedTMatrix {t t' : CompoundSystem} {E : ℝ} {m : Str → Option ℂ} {e : Failure} :
      Reachable option K lib s t → CompoundSystem.evaluateTMatrix option K lib E t m = .error e →
      t'.map GroupState.group = t.map GroupState.group → Reachable option K lib s t'

theorem CompoundSystem.grid_groups {s t : CompoundSystem}
    (h : s.map GroupState.group = t.map GroupState.group) : s.grid K lib = t.grid K lib := by
  have h' : ∀ u : CompoundSystem, (u.mapM fun state => state.group.grid K lib)
      = (u.map GroupState.group).mapM fun g => g.grid K lib := by
    intro u
    rw [List.mapM_map]
    rfl
  unfold CompoundSystem.grid
  rw [h', h', h]

/-- C23: after any sequence of evaluations, successful or not, at any energies, the cross sections,
T-matrix elements and grids of a compound system are those of the system as it was at the start. -/
theorem C23_any_history {s t : CompoundSystem} (h : Reachable option K lib s t) (E : ℝ)
    (result : CrossSectionMap) (tresult : Str → Option ℂ) :
    CompoundSystem.evaluate option K lib E t result
      = CompoundSystem.evaluate option K lib E s result ∧
    CompoundSystem.evaluateTMatrix option K lib E t tresult
      = CompoundSystem.evaluateTMatrix option K lib E s tresult ∧
    t.grid K lib = s.grid K lib := by
  have hg : t.map GroupState.group = s.map GroupState.group := by
    induction h with
    | start => rfl
    | evaluate _ h ih => exact (evaluate_system_groups h).1.trans ih
    | evaluateTMatrix _ h ih => exact (evaluateTMatrix_groups h).trans ih
    | failed _ _ h ih => exact h.trans ih
    | failedTMatrix _ _ h ih => exact h.trans ih
  exact ⟨(C23_system hg E result tresult).1, (C23_system hg E result tresult).2,
    CompoundSystem.grid_groups hg⟩

end

/-! ## C40 -/

namespace Spec

/-- `Γ = 2 γ² + Σ_c 2 P_c(E_r) γ_c²`. -/
def IsTotalWidth (K : Constants) (lib : CoulombLibrary) (channels : List Channel) (r : Resonance)
    (width : ℝ) : Prop :=
  ∃ P : Fin channels.length → ℝ,
    (∀ i : Fin channels.length, channels[i].penetrability K lib r.energy = .ok (P i)) ∧
    width = 2 * r.eliminated ^ 2 + ∑ i : Fin channels.length, 2 * P i * r.widths.getD i 0 ^ 2

/-- The grid points of one spin group. -/
def IsGridPoint (K : Constants) (lib : CoulombLibrary) (g : SpinGroup) (x : ℝ) : Prop :=
  ∃ r ∈ g.table.resonances, 0 < r.energy ∧ ∃ width, IsTotalWidth K lib g.channels r width ∧
    (x = r.energy - width / 2 ∨ x = r.energy ∨ x = r.energy + width / 2)

end Spec

section

variable {K : Constants} {lib : CoulombLibrary}

/-- C40, spin groups: a grid is strictly increasing and consists exactly of the energies and of the
points half a total width away from them, over the resonances with positive energies. -/
theorem C40_group {g : SpinGroup} {points : List ℝ}
    (hwidths : ∀ r ∈ g.table.resonances, r.widths.length = g.channels.length)
    (h : g.grid K lib = .ok points) :
    points.Pairwise (· < ·) ∧ ∀ x, x ∈ points ↔ Spec.IsGridPoint K lib g x := by
  unfold SpinGroup.grid at h
  simp only [bind, Except.bind] at h
  split at h
  · cases h
  rename_i pts hpts
  simp only [pure, Except.pure, Except.ok.injEq] at h
  subst h
  refine ⟨sortUnique_sorted _, fun x => ?_⟩
  rw [mem_sortUnique, gridPoints_ok hpts]
  unfold Spec.IsGridPoint
  refine exists_congr fun r => and_congr_right fun hr => and_congr_right fun _ =>
    exists_congr fun G => and_congr_left fun _ => ?_
  exact totalWidth_ok (hwidths r hr)

/-- C40, spin groups: a grid is returned exactly when the total widths of all resonances with positive
energies exist. -/
theorem C40_group_exists {g : SpinGroup}
    (hwidths : ∀ r ∈ g.table.resonances, r.widths.length = g.channels.length) :
    (∃ points, g.grid K lib = .ok points) ↔
      ∀ r ∈ g.table.resonances, 0 < r.energy → ∃ width, Spec.IsTotalWidth K lib g.channels r width := by
  have h1 : (∃ points, g.grid K lib = .ok points)
      ↔ ∃ points, gridPoints K lib g.channels g.table.resonances = .ok points := by
    unfold SpinGroup.grid
    cases gridPoints K lib g.channels g.table.resonances with
    | error e => simp [bind, Except.bind]
    | ok p => simp [bind, Except.bind, pure, Except.pure]
  rw [h1, gridPoints_exists]
  refine forall_congr' fun r => forall_congr' fun hr => forall_congr' fun _ => exists_congr fun G => ?_
  exact totalWidth_ok (hwidths r hr)

/-- C40, compound systems: the grid is strictly increasing and consists exactly of the grid points of
the spin groups. -/
theorem C40_system {s : CompoundSystem} {points : List ℝ}
    (hwidths : ∀ st ∈ s, ∀ r ∈ st.group.table.resonances,
      r.widths.length = st.group.channels.length)
    (h : s.grid K lib = .ok points) :
    points.Pairwise (· < ·) ∧
      ∀ x, x ∈ points ↔ ∃ st ∈ s, Spec.IsGridPoint K lib st.group x := by
  unfold CompoundSystem.grid at h
  simp only [bind, Except.bind] at h
  split at h
  · cases h
  rename_i grids hgrids
  simp only [pure, Except.pure, Except.ok.injEq] at h
  subst h
  refine ⟨sortUnique_sorted _, fun x => ?_⟩
  rw [mem_sortUnique]
  have hf := mapM_ok.mp hgrids
  clear hgrids
  induction hf with
  | nil => simp
  | @cons st pts s grids h1 _ ih =>
    have ih := ih fun st hst => hwidths st (List.mem_cons_of_mem _ hst)
    rw [List.flatten_cons, List.mem_append, List.exists_mem_cons_iff]
    exact or_congr ((C40_group (hwidths st List.mem_cons_self) h1).2 x) ih

end

/-! ## An example

Elastic, fission and eliminated capture data with J = 1/2 and positive parity, and elastic data with
J = 3/2 and negative parity, in mixed order. -/

namespace Example

noncomputable def pwave : Channel :=
  makeChannel .neutron pair pair pair.id 0 ⟨1, 1 / 2, 3 / 2, -1⟩ radii 0

noncomputable def capture : Channel :=
  makeChannel .photon pair excited "capture".toList 0 ⟨0, 0, 1 / 2, 1⟩ radii 0

noncomputable def elasticData : ChannelData := ⟨elastic, [1, 2], [1 / 2, 1 / 3], false⟩
noncomputable def pwaveData : ChannelData := ⟨pwave, [3], [1 / 4], false⟩
noncomputable def captureData : ChannelData := ⟨capture, [2, 1], [1 / 5, 1 / 7], true⟩
noncomputable def fissionData : ChannelData := ⟨fission, [1], [1 / 9], false⟩

noncomputable def data : List ChannelData := [elasticData, pwaveData, captureData, fissionData]

theorem data_lengths : ∀ d ∈ data, d.energies.length = d.widths.length := by
  intro d hd
  simp only [data, List.mem_cons, List.not_mem_nil, or_false] at hd
  rcases hd with rfl | rfl | rfl | rfl <;> rfl

theorem data_positive : (data.filter fun e => e.channel.numbers.J = 1 / 2 ∧
    e.channel.numbers.parity = 1) = [elasticData, captureData, fissionData] := by
  norm_num [data, elasticData, pwaveData, captureData, fissionData, elastic, pwave, capture, fission,
    makeChannel]

theorem data_negative : (data.filter fun e => e.channel.numbers.J = 3 / 2 ∧
    e.channel.numbers.parity = -1) = [pwaveData] := by
  norm_num [data, elasticData, pwaveData, captureData, fissionData, elastic, pwave, capture, fission,
    makeChannel]

theorem consistent_positive : Spec.ConsistentData [elasticData, captureData, fissionData] := by
  have p1 : Physical ⟨0, 1 / 2, 1 / 2, 1⟩ := ⟨⟨1, by norm_num⟩, ⟨1, by norm_num⟩⟩
  have p2 : Physical ⟨0, 0, 1 / 2, 1⟩ := ⟨⟨0, by norm_num⟩, ⟨1, by norm_num⟩⟩
  refine ⟨by simp [elasticData, captureData, fissionData],
    ⟨elasticData, by simp, rfl⟩, ?_, ?_, ?_, ⟨elasticData, by simp, rfl, rfl⟩⟩
  · intro d hd e he _ _
    simp only [List.mem_cons, List.not_mem_nil, or_false] at hd he
    rcases hd with rfl | rfl | rfl <;> rcases he with rfl | rfl | rfl <;> rfl
  · have n2 : elastic.id ≠ fission.id := fun h =>
      absurd ((C07_channelID_injective _ _ _ _ p1 p2).mp h).1 (by decide)
    rw [List.filter_cons_of_pos (by simp [elasticData]),
      List.filter_cons_of_neg (by simp [captureData]),
      List.filter_cons_of_pos (by simp [fissionData])]
    simpa [elasticData, fissionData] using n2
  · intro d hd e he _ _
    simp only [List.mem_cons, List.not_mem_nil, or_false] at hd he
    rcases hd with rfl | rfl | rfl <;> rcases he with rfl | rfl | rfl <;> exact ⟨rfl, rfl⟩

theorem consistent_negative : Spec.ConsistentData [pwaveData] := by
  refine ⟨by simp [pwaveData], ⟨pwaveData, by simp, rfl⟩, ?_, ?_, ?_,
    ⟨pwaveData, by simp, rfl, rfl⟩⟩
  · intro d hd e he _ _
    rw [List.mem_singleton.mp hd, List.mem_singleton.mp he]
  · rw [List.filter_cons_of_pos (by simp [pwaveData])]
    simp
  · intro d hd e he _ _
    rw [List.mem_singleton.mp hd, List.mem_singleton.mp he]
    exact ⟨rfl, rfl⟩

theorem system_exists (initial : (g : SpinGroup) → MatrixCache g.channels.length) :
    ∃ s, makeCompoundSystemFromData initial data = .ok s := by
  rw [C25_accepted initial data data_lengths]
  refine ⟨by simp [data], fun d hd => ?_⟩
  have h1 : ∀ J parity, d.channel.numbers.J = J → d.channel.numbers.parity = parity →
      (data.filter fun e => decide (e.channel.numbers.J = d.channel.numbers.J ∧
        e.channel.numbers.parity = d.channel.numbers.parity))
      = data.filter fun e => e.channel.numbers.J = J ∧ e.channel.numbers.parity = parity := by
    rintro _ _ rfl rfl
    rfl
  simp only [data, List.mem_cons, List.not_mem_nil, or_false] at hd
  rcases hd with rfl | rfl | rfl | rfl
  · rw [h1 (1 / 2) 1 rfl rfl, data_positive]; exact consistent_positive
  · rw [h1 (3 / 2) (-1) rfl rfl, data_negative]; exact consistent_negative
  · rw [h1 (1 / 2) 1 rfl rfl, data_positive]; exact consistent_positive
  · rw [h1 (1 / 2) 1 rfl rfl, data_positive]; exact consistent_positive

/-- The hypotheses of `C27_partial` hold for every channel of the example. -/
example : ∃ t, makeResonanceTable [elasticData, captureData, fissionData] = .ok t ∧
    captureData.energies.Nodup ∧ ((1 : ℝ), (1 / 7 : ℝ)) ∈ captureData.energies.zip captureData.widths := by
  obtain ⟨t, ht⟩ := (C26_accepted [elasticData, captureData, fissionData]).1
    (by simp [elasticData, captureData, fissionData])
  exact ⟨t, ht, by simp [captureData], by simp [captureData]⟩

/-- Data with two eliminated channels of the same J and parity consolidate, and the energies of the
two are joined. -/
example : ∃ out, consolidateChannelData (captureData :: data) = .ok out ∧
    ∃ d ∈ out, d.eliminated = true ∧ d.energies = [2, 1, 2, 1] := by
  obtain ⟨merged, h1, h2, -, h4, h5⟩ := C28_consolidation (captureData :: data) (by
    intro d hd
    rcases List.mem_cons.mp hd with rfl | hd
    · rfl
    · exact data_lengths d hd)
  obtain ⟨d, hd, hj⟩ := List.mem_map.mp ((h4 captureData.jpi).mpr ⟨captureData, by simp, rfl, rfl⟩)
  refine ⟨_, h1, d, List.mem_append.mpr (Or.inr hd), h2 d hd, ?_⟩
  rw [(h5 d hd).2.1, hj]
  simp [data, captureData, elasticData, pwaveData, fissionData]

/-- A system of two copies of the example group can be evaluated, and its grid exists. -/
noncomputable def system : CompoundSystem :=
  [⟨group, ⟨0, 0, 0⟩⟩, ⟨lossless, ⟨0, 1, 1⟩⟩]

theorem system_built : ∀ st ∈ system, st.group.Built := by
  intro st hst
  simp only [system, List.mem_cons, List.not_mem_nil, or_false] at hst
  rcases hst with rfl | rfl
  · exact group_built
  · exact lossless_built

theorem system_spinFactors : ∀ st ∈ system, ∀ c ∈ st.group.channels, 0 ≤ c.spinFactor := by
  intro st hst
  simp only [system, List.mem_cons, List.not_mem_nil, or_false] at hst
  rcases hst with rfl | rfl
  · exact spinFactor_nonneg
  · exact spinFactor_nonneg

theorem system_evaluates (option : BoundaryOption) (lib : CoulombLibrary) (result : CrossSectionMap) :
    ∃ r, CompoundSystem.evaluate option constants lib 2 system result = .ok r := by
  refine evaluate_system_exists (fun st hst => ?_) result
  simp only [system, List.mem_cons, List.not_mem_nil, or_false] at hst
  rcases hst with rfl | rfl
  · exact (evaluates option lib _ _ fun _ => none).1
  · exact (lossless_evaluates option lib _ _ fun _ => none).1

theorem system_tMatrix (option : BoundaryOption) (lib : CoulombLibrary) :
    ∃ r, CompoundSystem.evaluateTMatrix option constants lib 2 system (fun _ => none) = .ok r := by
  obtain ⟨⟨r, c⟩, h1⟩ := (evaluates option lib ⟨0, 0, 0⟩ (fun _ => none) fun _ => none).2
  obtain ⟨⟨r', c'⟩, h2⟩ := (lossless_evaluates option lib ⟨0, 1, 1⟩ (fun _ => none) r).2
  refine ⟨(r', [⟨group, c⟩, ⟨lossless, c'⟩]), ?_⟩
  simp only [system, CompoundSystem.evaluateTMatrix, h1, h2, bind, Except.bind, pure, Except.pure]

/-- Evaluating the system never lowers an entry. -/
example (option : BoundaryOption) (lib : CoulombLibrary) (result : CrossSectionMap) :
    ∃ r s', CompoundSystem.evaluate option constants lib 2 system result = .ok (r, s') ∧
      ∀ id, (result id).getD 0 ≤ (r id).getD 0 := by
  obtain ⟨⟨r, s'⟩, h⟩ := system_evaluates option lib result
  exact ⟨r, s', h, C21_system system_built system_spinFactors h⟩

/-- The grid of the example group exists and is not empty. -/
theorem grid_exists (lib : CoulombLibrary) :
    ∃ points, group.grid constants lib = .ok points ∧ (5 : ℝ) ∈ points := by
  have hex : ∃ points, group.grid constants lib = .ok points := by
    rw [C40_group_exists widths]
    intro r hr hpos
    have hr' : r ∈ resonances := hr
    have hneutral : ∀ c ∈ group.channels, NeutralAt r.energy c := by
      have hE : r.energy = 1 ∨ r.energy = 5 := by
        simp only [resonances, List.mem_cons, List.not_mem_nil, or_false] at hr'
        rcases hr' with rfl | rfl <;> simp
      intro c hc
      have hc' : c ∈ channels := hc
      simp only [channels, List.mem_cons, List.not_mem_nil, or_false] at hc'
      have hE20 : r.energy ≠ 20 := by rcases hE with h | h <;> rw [h] <;> norm_num
      rcases hc' with rfl | rfl | rfl
      · exact ⟨by decide, fun _ => by decide, fun _ => by norm_num [elastic, makeChannel, pair],
          by simp [elastic, makeChannel, pair, hpos.ne'], ⟨1, one_pos, rfl⟩, ⟨1, rfl⟩, ⟨1, rfl⟩⟩
      · refine ⟨by decide, fun _ => by decide, fun _ => by norm_num [inelastic, makeChannel, excited],
          ?_, ⟨1, one_pos, rfl⟩, ⟨1, rfl⟩, ⟨1, rfl⟩⟩
        simp only [inelastic, makeChannel, pair]
        intro h
        apply hE20
        linarith
      · exact ⟨by decide, fun h => absurd h (by decide),
          fun _ => by norm_num [fission, makeChannel, fissionPair],
          by simp [fission, makeChannel, pair, hpos.ne'], ⟨1, one_pos, rfl⟩, ⟨1, rfl⟩, ⟨1, rfl⟩⟩
    choose P hP using fun i : Fin group.channels.length =>
      ((hneutral group.channels[i] (List.getElem_mem _)).values (K := constants) (lib := lib)).1
    exact ⟨_, P, fun i => (hP i).2, rfl⟩
  obtain ⟨points, h⟩ := hex
  obtain ⟨width, hw⟩ := (C40_group_exists widths).mp ⟨points, h⟩ ⟨5, [1 / 4, 0, 1], 0⟩
    (by simp [group, table, resonances]) (by norm_num)
  exact ⟨points, h, ((C40_group widths h).2 5).mpr ⟨⟨5, [1 / 4, 0, 1], 0⟩,
    by simp [group, table, resonances], by norm_num, width, hw, Or.inr (Or.inl rfl)⟩⟩

end Example

end Verif
