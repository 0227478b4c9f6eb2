import Verif.Lemmas.CompoundSystem
import Verif.Props.SpinGroupConstruction

/-!
# Properties C25 - C28: from channel data to spin groups and compound systems
-/

namespace Verif

/-! ## C26 -/

/-- C26: a table is made unless there are two or more eliminated channels, which throws. -/
theorem C26_accepted (channels : List ChannelData) :
    (channels.countP ChannelData.eliminated ≤ 1 → ∃ t, makeResonanceTable channels = .ok t) ∧
    (1 < channels.countP ChannelData.eliminated → makeResonanceTable channels = .error .throws) := by
  unfold makeResonanceTable
  constructor
  · intro h
    simp only
    rw [if_neg (by omega)]
    unfold makeTable
    obtain ⟨-, -, hrow⟩ := widthMap_spec channels
    rw [if_pos]
    · exact ⟨_, rfl⟩
    · intro r hr
      obtain ⟨e, he, rfl⟩ := List.mem_map.mp hr
      by_cases hn : channels.countP ChannelData.eliminated ≠ 0
      · rw [if_pos hn, if_pos hn]
        simp only [hrow e he]
        unfold indexEliminated
        rw [eraseIdx_findIdx _ _ _ h, eraseIdx_findIdx _ _ _ h]
        simp
      · rw [if_neg hn, if_neg hn]
        simp [hrow e he]
  · intro h
    simp only
    rw [if_pos h]

/-- C26: the contents of a table made from channel data. The channels are those that are not
eliminated, in order; the energies increase strictly and are exactly those that occur in the data;
each width is the last one that the channel lists for the energy, or zero. -/
theorem C26_contents {channels : List ChannelData} {table : ResonanceTable}
    (hlen : ∀ d ∈ channels, d.energies.length = d.widths.length)
    (h : makeResonanceTable channels = .ok table) :
    table.channels = (channels.filter fun d => ¬ d.eliminated).map (fun d => d.channel.id) ∧
    (table.resonances.map Resonance.energy).Pairwise (· < ·) ∧
    (∀ E, E ∈ table.resonances.map Resonance.energy ↔ ∃ d ∈ channels, E ∈ d.energies) ∧
    ∀ r ∈ table.resonances,
      r.widths = (channels.filter fun d => ¬ d.eliminated).map (fun d => Spec.lastWidth d r.energy) ∧
      r.eliminated
        = ((channels.find? ChannelData.eliminated).map fun d => Spec.lastWidth d r.energy).getD 0 := by
  obtain ⟨hs, hk, hrow⟩ := widthMap_spec channels
  have hcount : channels.countP ChannelData.eliminated ≤ 1 := by
    by_contra hn
    rw [(C26_accepted channels).2 (by omega)] at h
    cases h
  have hfst : ∀ d ∈ channels, (d.energies.zip d.widths).map Prod.fst = d.energies := by
    intro d hd
    rw [List.map_fst_zip]
    rw [hlen d hd]
  unfold makeResonanceTable at h
  simp only at h
  rw [if_neg (by omega)] at h
  · by_cases hn : channels.countP ChannelData.eliminated ≠ 0
    · simp only [if_pos hn] at h
      obtain rfl := makeTable_eq h
      simp only
      refine ⟨?_, ?_, ?_, ?_⟩
      · unfold indexEliminated
        rw [eraseIdx_findIdx _ _ _ hcount]
      · rw [List.map_map]
        exact hs
      · intro E
        rw [List.map_map]
        rw [show (Resonance.energy ∘ fun entry : ℝ × List ℝ =>
          (⟨entry.1, entry.2.eraseIdx (indexEliminated channels),
            entry.2.getD (indexEliminated channels) 0⟩ : Resonance)) = Prod.fst from rfl, hk]
        refine exists_congr fun d => ?_
        constructor
        · rintro ⟨h1, h2⟩
          exact ⟨h1, by rwa [hfst d h1] at h2⟩
        · rintro ⟨h1, h2⟩
          exact ⟨h1, by rwa [hfst d h1]⟩
      · intro r hr
        obtain ⟨e, he, rfl⟩ := List.mem_map.mp hr
        simp only [hrow e he]
        unfold indexEliminated
        exact ⟨eraseIdx_findIdx _ _ _ hcount, getD_findIdx _ _ _⟩
    · simp only [if_neg hn] at h
      obtain rfl := makeTable_eq h
      simp only
      rw [not_not] at hn
      have hfil := filter_not_eq_self _ _ hn
      refine ⟨?_, ?_, ?_, ?_⟩
      · rw [hfil]
      · rw [List.map_map]
        exact hs
      · intro E
        rw [List.map_map]
        rw [show (Resonance.energy ∘ fun entry : ℝ × List ℝ =>
          (⟨entry.1, entry.2, 0⟩ : Resonance)) = Prod.fst from rfl, hk]
        refine exists_congr fun d => ?_
        constructor
        · rintro ⟨h1, h2⟩
          exact ⟨h1, by rwa [hfst d h1] at h2⟩
        · rintro ⟨h1, h2⟩
          exact ⟨h1, by rwa [hfst d h1]⟩
      · intro r hr
        obtain ⟨e, he, rfl⟩ := List.mem_map.mp hr
        simp only [hfil]
        refine ⟨hrow e he, ?_⟩
        rw [List.find?_eq_none.mpr]
        · rfl
        · intro d hd
          simpa using (List.countP_eq_zero.mp hn) d hd

/-! ## C27 -/

/-- The statement of C27 as written. -/
def C27_claim : Prop :=
  ∀ (channels : List ChannelData) (table : ResonanceTable),
    (∀ d ∈ channels, d.energies.length = d.widths.length) →
    makeResonanceTable channels = .ok table →
    ∀ d ∈ channels, ∀ p ∈ d.energies.zip d.widths, ∃ r ∈ table.resonances, r.energy = p.1 ∧
      (d.eliminated = true → r.eliminated = p.2) ∧
      (d.eliminated = false → (d.channel.id, p.2) ∈ table.channels.zip r.widths)

/-- C27 for channels that list no energy twice. Missing are channels with repeated energies, for which
the claim is false (`C27_disproved`). -/
theorem C27_partial {channels : List ChannelData} {table : ResonanceTable}
    (hlen : ∀ d ∈ channels, d.energies.length = d.widths.length)
    (h : makeResonanceTable channels = .ok table) {d : ChannelData} (hd : d ∈ channels)
    (hn : d.energies.Nodup) {p : ℝ × ℝ} (hp : p ∈ d.energies.zip d.widths) :
    ∃ r ∈ table.resonances, r.energy = p.1 ∧
      (d.eliminated = true → r.eliminated = p.2) ∧
      (d.eliminated = false → (d.channel.id, p.2) ∈ table.channels.zip r.widths) := by
  obtain ⟨h1, h2, h3, h4⟩ := C26_contents hlen h
  have hE : p.1 ∈ d.energies := (List.of_mem_zip (a := p.1) (b := p.2) hp).1
  obtain ⟨r, hr, hre⟩ := List.mem_map.mp ((h3 p.1).mpr ⟨d, hd, hE⟩)
  obtain ⟨h5, h6⟩ := h4 r hr
  refine ⟨r, hr, hre, fun he => ?_, fun he => ?_⟩
  · have hcount : channels.countP ChannelData.eliminated ≤ 1 := by
      by_contra hc
      rw [(C26_accepted channels).2 (by omega)] at h
      cases h
    have hf : channels.find? ChannelData.eliminated = some d := by
      clear h1 h2 h3 h4 h5 h6 h hlen
      induction channels with
      | nil => cases hd
      | cons a l ih =>
        rw [List.countP_cons] at hcount
        cases ha : a.eliminated with
        | true =>
          rw [List.find?_cons_of_pos (by exact ha)]
          rcases List.mem_cons.mp hd with rfl | hd
          · rfl
          · rw [if_pos ha] at hcount
            have : l.countP ChannelData.eliminated = 0 := by omega
            exact absurd he ((List.countP_eq_zero.mp this) d hd)
        | false =>
          rw [List.find?_cons_of_neg (by simp [ha])]
          rcases List.mem_cons.mp hd with rfl | hd
          · rw [ha] at he; cases he
          · refine ih hd ?_
            rw [if_neg (by simp [ha])] at hcount
            exact hcount
    rw [h6, hf, hre]
    exact lastWidth_of_nodup hn hp
  · rw [h1, h5, List.zip_map']
    refine List.mem_map.mpr ⟨d, List.mem_filter.mpr ⟨hd, by simp [he]⟩, ?_⟩
    rw [hre, lastWidth_of_nodup hn hp]

/-- C27 fails: of two widths that a channel lists for the same energy only the last one survives. -/
theorem C27_disproved : ¬ C27_claim := by
  intro hclaim
  let c : Channel := makeChannel .neutron ⟨⟨[], 1, 0, 0, 1⟩, ⟨[], 1, 0, 0, 1⟩, [], 1 / 2, 1 / 2⟩
    ⟨⟨[], 1, 0, 0, 1⟩, ⟨[], 1, 0, 0, 1⟩, [], 1 / 2, 1 / 2⟩ [] 0 ⟨0, 0, 0, 1⟩
    ⟨fun _ => .ok 1, fun _ => .ok 1, fun _ => .ok 1⟩ 0
  let d : ChannelData := ⟨c, [1, 1], [2, 3], false⟩
  have hlen : ∀ x ∈ [d], x.energies.length = x.widths.length := by
    intro x hx
    rw [List.mem_singleton.mp hx]
    rfl
  obtain ⟨t, ht⟩ := (C26_accepted [d]).1 (by simp [d])
  obtain ⟨r, hr, hre, -, hz⟩ := hclaim [d] t hlen ht d List.mem_cons_self (1, 2) (by simp [d])
  obtain ⟨h1, -, -, h4⟩ := C26_contents hlen ht
  have hz := hz rfl
  rw [h1, (h4 r hr).1, hre] at hz
  have hw : Spec.lastWidth d 1 = 3 := by
    simp [Spec.lastWidth, d]
  simp only [d, List.zip_map', List.mem_map, Prod.mk.injEq] at hz
  obtain ⟨a, ha, -, h2⟩ := hz
  have ha' : a = d := by
    have := (List.mem_filter.mp ha).1
    simpa using this
  rw [ha', hw] at h2
  norm_num at h2

/-! ## C28 -/

/-- C28: consolidation succeeds on constructible data. The result starts with all channels that are
not eliminated, unchanged and in order, followed by one eliminated channel for each J and parity that
has one: the first such channel with the energies and widths of all of them joined in order. -/
theorem C28_consolidation (channels : List ChannelData)
    (hlen : ∀ d ∈ channels, d.energies.length = d.widths.length) :
    ∃ merged, consolidateChannelData channels
        = .ok ((channels.filter fun d => ¬ d.eliminated) ++ merged) ∧
      (∀ d ∈ merged, d.eliminated = true) ∧
      (merged.map ChannelData.jpi).Pairwise (· < ·) ∧
      (∀ x, x ∈ merged.map ChannelData.jpi ↔ ∃ d ∈ channels, d.eliminated = true ∧ d.jpi = x) ∧
      ∀ d ∈ merged,
        (∃ first ∈ channels, first.eliminated = true ∧ first.channel = d.channel ∧
          (channels.find? fun a => a.eliminated && a.jpi == d.jpi) = some first) ∧
        d.energies = (channels.filter fun a => a.eliminated && a.jpi == d.jpi).flatMap
          ChannelData.energies ∧
        d.widths = (channels.filter fun a => a.eliminated && a.jpi == d.jpi).flatMap
          ChannelData.widths := by
  set remaining := channels.filter (fun d => d.eliminated) with hrem
  set jpis := sortUnique (remaining.map ChannelData.jpi) with hj
  have hff : ∀ x, remaining.filter (fun a => a.jpi == x)
      = channels.filter (fun a => a.eliminated && a.jpi == x) := by
    intro x
    rw [hrem, List.filter_filter]
    congr 1
    funext a
    rw [Bool.and_comm]
  have key : ∀ x ∈ jpis, ∃ first rest, remaining.filter (fun a => a.jpi == x) = first :: rest ∧
      mergeEliminated (remaining.filter fun a => a.jpi == x)
        = .ok ⟨first.channel, (remaining.filter fun a => a.jpi == x).flatMap ChannelData.energies,
          (remaining.filter fun a => a.jpi == x).flatMap ChannelData.widths, true⟩ := by
    intro x hx
    rw [hj, mem_sortUnique] at hx
    obtain ⟨d, hd, rfl⟩ := List.mem_map.mp hx
    refine mergeEliminated_ok ?_ ?_ ?_
    · intro h0
      have : d ∈ remaining.filter (fun a => a.jpi == d.jpi) :=
        List.mem_filter.mpr ⟨hd, by simp⟩
      rw [h0] at this
      cases this
    · intro a ha
      exact hlen a (List.mem_filter.mp (List.mem_filter.mp ha).1).1
    · intro a ha
      exact (List.mem_filter.mp (List.mem_filter.mp ha).1).2
  obtain ⟨merged, hm⟩ := mapM_exists.mpr fun x hx =>
    (let ⟨f, _, _, h⟩ := key x hx; ⟨_, h⟩ : ∃ b, mergeEliminated
      (remaining.filter fun a => a.jpi == x) = .ok b)
  have hforall := mapM_ok.mp hm
  have hmerged : merged.map ChannelData.jpi = jpis ∧ ∀ d ∈ merged, d.jpi ∈ jpis ∧
      mergeEliminated (remaining.filter fun a => a.jpi == d.jpi) = .ok d := by
    have hsub : ∀ x ∈ jpis, x ∈ jpis := fun _ h => h
    clear_value jpis
    clear hm hj
    suffices ∀ js ms, (∀ x ∈ js, x ∈ jpis) → List.Forall₂ (fun a b =>
        mergeEliminated (remaining.filter fun d => d.jpi == a) = .ok b) js ms →
        ms.map ChannelData.jpi = js ∧ ∀ d ∈ ms, d.jpi ∈ jpis ∧
          mergeEliminated (remaining.filter fun a => a.jpi == d.jpi) = .ok d from
      this jpis merged hsub hforall
    intro js ms hjs hf
    induction hf with
    | nil => exact ⟨rfl, fun d hd => by cases hd⟩
    | @cons a b js ms h1 _ ih =>
      obtain ⟨i1, i2⟩ := ih fun x hx => hjs x (List.mem_cons_of_mem _ hx)
      obtain ⟨first, rest, k1, k2⟩ := key a (hjs a List.mem_cons_self)
      have hb : b.jpi = a := by
        rw [k2] at h1
        cases h1
        have : first ∈ remaining.filter (fun d => d.jpi == a) := by rw [k1]; exact List.mem_cons_self
        exact (show first.jpi = a by simpa using (List.mem_filter.mp this).2)
      refine ⟨by rw [List.map_cons, i1, hb], fun d hd => ?_⟩
      rcases List.mem_cons.mp hd with rfl | hd
      · rw [hb]
        exact ⟨hjs a List.mem_cons_self, h1⟩
      · exact i2 d hd
  refine ⟨merged, ?_, ?_, ?_, ?_, ?_⟩
  · unfold consolidateChannelData
    simp only [bind, Except.bind, ← hrem, ← hj]
    rw [hm]
    rfl
  · intro d hd
    obtain ⟨h1, h2⟩ := hmerged.2 d hd
    obtain ⟨first, rest, k1, k2⟩ := key _ h1
    rw [k2] at h2
    have := (Except.ok.inj h2).symm
    rw [this]
  · rw [hmerged.1, hj]
    exact sortUnique_sorted _
  · intro x
    rw [hmerged.1, hj, mem_sortUnique, List.mem_map]
    refine exists_congr fun d => ?_
    rw [hrem, List.mem_filter, and_assoc]
  · intro d hd
    obtain ⟨h1, h2⟩ := hmerged.2 d hd
    obtain ⟨first, rest, k1, k2⟩ := key _ h1
    have h3 : d.energies = (remaining.filter fun a => a.jpi == d.jpi).flatMap ChannelData.energies ∧
        d.widths = (remaining.filter fun a => a.jpi == d.jpi).flatMap ChannelData.widths ∧
        d.channel = first.channel := by
      rw [k2] at h2
      have := (Except.ok.inj h2).symm
      refine ⟨?_, ?_, ?_⟩
      · conv_lhs => rw [this]
      · conv_lhs => rw [this]
      · conv_lhs => rw [this]
    rw [← hff]
    refine ⟨⟨first, ?_, ?_, h3.2.2.symm, ?_⟩, h3.1, h3.2.1⟩
    · have : first ∈ remaining.filter (fun a => a.jpi == d.jpi) := by rw [k1]; exact List.mem_cons_self
      exact (List.mem_filter.mp (List.mem_filter.mp this).1).1
    · have : first ∈ remaining.filter (fun a => a.jpi == d.jpi) := by rw [k1]; exact List.mem_cons_self
      exact (List.mem_filter.mp (List.mem_filter.mp this).1).2
    · rw [← List.head?_filter, ← hff, k1]
      rfl

end Verif
