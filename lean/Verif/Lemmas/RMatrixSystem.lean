import Verif.Lemmas.RMatrixRecord

/-!
# The cross sections of the compound system of an R-matrix-limited evaluation
-/

namespace Verif.Endf

open Spec Complex

variable {K : Constants} {lib : CoulombLibrary} {reactions : ReactionLibrary}
  {neutronMass elementaryCharge E : ℝ} {incident target : Str} {p : RMatrixLimited}
  {pairs : List ParticlePair} {pair : ParticlePair} {q : ℝ} {record : SpinGroupRecord}
  {initial : (g : SpinGroup) → MatrixCache g.channels.length} {option : BoundaryOption}
  {s s' : CompoundSystem} {m : CrossSectionMap}

theorem forall₂_function {α β : Type*} {R : α → β → Prop} {l : List α} {ms : List β}
    (h : List.Forall₂ R l ms) (hn : l.Nodup) (hb : Nonempty β) :
    ∃ F : α → β, ms = l.map F ∧ ∀ a ∈ l, R a (F a) := by
  classical
  induction h with
  | nil => exact ⟨fun _ => hb.some, rfl, by simp⟩
  | @cons a b l ms h1 _ ih =>
    rw [List.nodup_cons] at hn
    obtain ⟨F, h2, h3⟩ := ih hn.2
    refine ⟨fun x => if x = a then b else F x, ?_, fun x hx => ?_⟩
    · rw [List.map_cons, if_pos rfl, h2]
      congr 1
      refine List.map_congr_left fun x hx => ?_
      rw [if_neg]
      rintro rfl
      exact hn.1 hx
    · by_cases hxa : x = a
      · dsimp only
        rw [if_pos hxa, hxa]
        exact h1
      · dsimp only
        rw [if_neg hxa]
        exact h3 x ((List.mem_cons.mp hx).resolve_left hxa)

/-- The cross sections of one group. -/
theorem evaluate_values {g : SpinGroup} (hb : g.Built) {cache cache' : MatrixCache g.channels.length}
    {part : CrossSectionMap} (h : g.evaluate option K lib E cache (fun _ => none) = .ok (part, cache')) :
    ∃ P S w phi, Evaluable option K lib g.channels g.table.resonances E P S w phi ∧ g.channels ≠ [] ∧
      (∀ id, (part id).getD 0 = contribution option K g.channels g.table.resonances E P S w phi id) ∧
      ∀ id, (part id).isSome ↔ (∃ c ∈ g.channels, c.reaction = id) ∨ captureID g.channels = some id := by
  obtain ⟨P, S, w, phi, hev, hv⟩ := evaluate_ok hb h
  obtain ⟨-, first, rest, hfirst, hreac, -⟩ := hb.incident
  have hcap : captureID g.channels = some (.transition first.incident.id "capture".toList) := by
    rw [hfirst]
    rfl
  have hmem : ∀ id, id ∈ g.reactions ↔ (∃ c ∈ g.channels, c.reaction = id) ∨ captureID g.channels = some id := by
    intro id
    rw [hreac, hcap]
    simp [eq_comm]
  refine ⟨P, S, w, phi, hev, by rw [hfirst]; simp, fun id => ?_, fun id => ?_⟩
  · rw [hv]
    split
    · simp
    · rename_i hno
      rw [hmem, not_or, not_exists] at hno
      unfold contribution
      symm
      refine Finset.sum_eq_zero fun c _ => ?_
      split
      · rw [Finset.sum_eq_zero, zero_add, if_neg hno.2]
        intro c' _
        rw [if_neg]
        exact fun h' => hno.1 _ ⟨List.getElem_mem _, h'⟩
      · rfl
  · rw [hv, ← hmem]
    split
    · simpa
    · simpa

/-- The J and parity of a record. -/
def recordKey (record : SpinGroupRecord) : ℚ ×ₗ ℤ := toLex (|record.spin|, parityOf record.spin record.parity)

theorem recordKey_nodup (h : p.spinGroups.Pairwise fun a b => ¬ SameSpinParity a b) :
    (p.spinGroups.map recordKey).Nodup := by
  rw [List.Nodup, List.pairwise_map]
  refine h.imp fun {a b} hab he => hab ?_
  have he : (|a.spin|, parityOf a.spin a.parity) = (|b.spin|, parityOf b.spin b.parity) := he
  rw [Prod.mk.injEq] at he
  refine ⟨_, _, spinParity_parityOf a.spin a.parity, ?_⟩
  rw [he.1, he.2]
  exact spinParity_parityOf _ _

theorem RGroup_nonempty : Nonempty RGroup :=
  ⟨⟨0, Fin.elim0, Fin.elim0, Fin.elim0, Fin.elim0, Fin.elim0, Fin.elim0, []⟩⟩

theorem into_none {g : RGroup} (h : ∀ i, ¬ g.isIncident i) (out : PairID) : g.into K E out = 0 := by
  unfold RGroup.into
  exact Finset.sum_eq_zero fun c _ => if_neg (h c)

theorem capture_none {g : RGroup} (h : ∀ i, ¬ g.isIncident i) : g.capture K E = 0 := by
  unfold RGroup.capture
  exact Finset.sum_eq_zero fun c _ => if_neg (h c)

theorem zipWith_map {α β γ : Type*} (f : α → β → γ) (G : α → β) (l : List α) :
    List.zipWith f l (l.map G) = l.map fun a => f a (G a) := by
  induction l with
  | nil => rfl
  | cons a l ih => rw [List.map_cons, List.zipWith_cons_cons, ih, List.map_cons]

/-- The pair of the first row with MT = 2. -/
theorem Pairs.unique (hp : Pairs reactions neutronMass elementaryCharge incident target p pairs pair q)
    {pair' : ParticlePair} (h : pairs[findParticlePair p.pairs 2]? = some pair') : pair' = pair := by
  obtain ⟨i, row, h1, h2, h3, -⟩ := hp.incident
  have hl : pairs.length = p.pairs.length := hp.described.length_eq.symm
  obtain ⟨hf, -⟩ := List.getElem?_eq_some_iff.mp h
  have hf' : findParticlePair p.pairs 2 < p.pairs.length := by omega
  have hmt := List.findIdx_getElem (p := fun row : ParticlePairRow => row.mt == 2) (w := hf')
  have hmt : p.pairs[findParticlePair p.pairs 2].mt = 2 := beq_iff_eq.mp hmt
  have n1 := (forall₂_index hp.described h1 h2).name
  have n2 := (forall₂_index hp.described (List.getElem?_eq_getElem hf') h).name
  unfold IsName at n1 n2
  rw [if_pos h3] at n1
  rw [if_pos hmt] at n2
  have := pair_index hp.nodup h h2 (n2.2.2.trans n1.2.2.symm)
  rw [this, h2] at h
  exact (Option.some.inj h).symm

/-- The data of each record. -/
theorem records_of (hp : Pairs reactions neutronMass elementaryCharge incident target p pairs pair q)
    {records : List SpinGroupRecord} {data : List (List ChannelData)}
    (ho : ∀ record ∈ records, Ordered pairs p record)
    (h : List.Forall₂ (fun record d => makeParticleChannelData K lib pair pairs p.pairs
      (p.reducedWidths != 0) record = .ok d) records data) :
    ∃ rs, List.Forall₂ (RecordOf K lib p pairs pair q) records rs ∧ data = rs.map RecordData.data := by
  induction h with
  | nil => exact ⟨[], .nil, rfl⟩
  | cons a1 _ ih =>
    obtain ⟨r, b1, b2⟩ := record_of hp (ho _ List.mem_cons_self) a1
    obtain ⟨rs, b3, b4⟩ := ih fun record hr => ho record (List.mem_cons_of_mem _ hr)
    exact ⟨r :: rs, .cons b1 b3, by rw [List.map_cons, b2, b4]⟩

theorem records_keys {records : List SpinGroupRecord} {rs : List RecordData}
    (h : List.Forall₂ (RecordOf K lib p pairs pair q) records rs) :
    rs.map RecordData.x = records.map recordKey := by
  induction h with
  | nil => rfl
  | cons a1 _ ih => rw [List.map_cons, List.map_cons, ih, a1.x]; rfl

theorem system_rmatrix (hp : Pairs reactions neutronMass elementaryCharge incident target p pairs pair q)
    (ho : ∀ record ∈ p.spinGroups, Ordered pairs p record)
    (hd : p.spinGroups.Pairwise fun a b => ¬ SameSpinParity a b)
    (hown : ∀ row ∈ p.pairs, (option = .shiftFactor ↔ row.shiftFactorFlag = 0))
    (h : makeRMatrixCompoundSystem K lib initial reactions neutronMass elementaryCharge incident target p
      = .ok s)
    (hm : CompoundSystem.evaluate option K lib E s (fun _ => none) = .ok (m, s')) :
    ∃ gs, IsRMatrix K lib pair q pairs p E gs m := by
  unfold makeRMatrixCompoundSystem at h
  obtain ⟨pairs', h1, h⟩ := bind_ok.mp h
  obtain rfl := pairs_eq hp.described (isPairs_of h1)
  split at h
  · cases h
  rename_i pair' hpair
  obtain rfl := hp.unique hpair
  obtain ⟨data, h2, h⟩ := bind_ok.mp h
  obtain ⟨consolidated, h3, h⟩ := bind_ok.mp h
  replace h2 := mapM_ok.mp h2
  obtain ⟨i2, row2, hi1, hi2, hi3, hi4⟩ := hp.incident
  have hipair := forall₂_index hp.described hi1 hi2
  have hμ : 0 ≤ pair'.reducedMass := by
    rw [hipair.reduced]
    have := hipair.notNegative.1
    have := hipair.notNegative.2.1
    positivity
  obtain ⟨rs, hrs, hdata⟩ := records_of hp ho h2
  have hflat : data.flatten = rs.flatMap RecordData.data := by rw [hdata, List.flatMap_def]
  rw [hflat] at h3
  have hkeys : rs.map RecordData.x = p.spinGroups.map recordKey := records_keys hrs
  have hnodup := recordKey_nodup hd
  have hrecord : ∀ r ∈ rs, ∃ record ∈ p.spinGroups, RecordOf K lib p pairs pair' q record r := by
    intro r hr
    exact forall₂_mem_right hrs hr
  obtain ⟨jpis, j1, j2, j3, j4⟩ := RecordData.system_records
    (fun r hr => (hrecord r hr).elim fun _ h => h.2.good) (by rw [hkeys]; exact hnodup) h3 h
  have hb : ∀ st ∈ s, st.group.Built := by
    intro st hst
    obtain ⟨x, -, h, -⟩ := forall₂_mem_right j4 hst
    exact h
  obtain ⟨parts, hparts, hid⟩ := C22_system hb hm
  obtain ⟨F, rfl, hF⟩ := forall₂_function (forall₂_trans j4 hparts) j1 ⟨fun _ => none⟩
  have hcapid := isPair_capture hipair
  -- the spin group of each record
  have hgroup : ∀ record ∈ p.spinGroups, ∃ g, IsRGroup K lib pair' pairs p E record g ∧
      (recordKey record ∈ jpis →
        2 * pair'.reducedMass * |pair'.massRatio * E + q| ≠ 0 ∧
        ((F (recordKey record) (.elastic pair'.id)).isSome ∧
          (F (recordKey record) (.transition pair'.id "capture".toList)).isSome) ∧
        (∀ id, (F (recordKey record) id).isSome → id = .elastic pair'.id ∨ ∃ out, out ≠ pair'.id ∧
          id = .transition pair'.id out) ∧
        (F (recordKey record) (.elastic pair'.id)).getD 0
          = Real.pi / (2 * pair'.reducedMass * |pair'.massRatio * E + q| / K.hbar ^ 2)
            * groupFactor pair' record * g.into K E pair'.id ∧
        (F (recordKey record) (.transition pair'.id "capture".toList)).getD 0
          = Real.pi / (2 * pair'.reducedMass * |pair'.massRatio * E + q| / K.hbar ^ 2)
            * groupFactor pair' record * g.capture K E ∧
        ∀ out, out ≠ pair'.id → out ≠ "capture".toList →
          (F (recordKey record) (.transition pair'.id out)).getD 0
            = Real.pi / (2 * pair'.reducedMass * |pair'.massRatio * E + q| / K.hbar ^ 2)
              * groupFactor pair' record * g.into K E out) ∧
      (recordKey record ∉ jpis → ∀ i, ¬ g.isIncident i) := by
    intro record hr
    obtain ⟨r, hrm, hro⟩ := forall₂_mem_left hrs hr
    by_cases hx : recordKey record ∈ jpis
    · obtain ⟨st, ⟨hbu, hst⟩, cache, hcache⟩ := hF _ hx
      obtain ⟨hch, ht⟩ := hst r hrm hro.x
      obtain ⟨P, S, w, phi, hev, hne, hv, hsome⟩ := evaluate_values hbu hcache
      obtain ⟨g, e, hg, hemb⟩ := hro.exists_group (ho record hr).energies hown hch ht hev
      have hchan : ∀ c ∈ st.group.channels, c.incident.id = pair'.id ∧
          c.reaction = makeReactionID pair'.id c.pair.id ∧ c.pair.id ≠ "capture".toList := by
        intro c hc
        rw [hch] at hc
        obtain ⟨i, -, rfl⟩ := List.mem_map.mp hc
        obtain ⟨a1, -, a3, a4⟩ := hro.made i
        exact ⟨by rw [a3], a1, a4⟩
      obtain ⟨c1, c2, c3⟩ := hemb.contribution_eq hev hne hchan hcapid
      obtain ⟨f1, f2⟩ := hro.factor hμ hch hev.waveNumber
      rw [f2] at c1 c2 c3
      have hcap : captureID st.group.channels = some (.transition pair'.id "capture".toList) := by
        cases hcs : st.group.channels with
        | nil => exact absurd hcs hne
        | cons c cs =>
          unfold captureID
          rw [List.head?_cons, Option.map_some, (hchan c (by rw [hcs]; simp)).1]
      refine ⟨g, hg, fun _ => ⟨f1, ⟨?_, ?_⟩, ?_, ?_, ?_, ?_⟩, fun h' => absurd hx h'⟩
      · obtain ⟨c, hc, -⟩ := hev.waveNumber
        have hcm := List.mem_of_find?_eq_some hc
        have hci := List.find?_some hc
        obtain ⟨a1, a2, -⟩ := hchan c hcm
        refine (hsome _).mpr (.inl ⟨c, hcm, ?_⟩)
        unfold Channel.isIncident at hci
        rw [a2, beq_iff_eq.mp hci, a1]
        exact if_pos rfl
      · exact (hsome _).mpr (.inr hcap)
      · intro id hi
        rcases (hsome id).mp hi with ⟨c, hc, rfl⟩ | h'
        · rw [(hchan c hc).2.1]
          unfold makeReactionID
          split
          · exact .inl rfl
          · exact .inr ⟨_, Ne.symm ‹_›, rfl⟩
        · rw [hcap] at h'
          exact .inr ⟨_, Ne.symm hcapid, (Option.some.inj h').symm⟩
      · rw [hv, c1]
      · rw [hv, c2]
      · intro out o1 o2
        rw [hv, c3 out o1 o2]
    · have h0 : r.part = [] := by
        by_contra h0
        have hk : r.x = recordKey record := hro.x
        rw [← hk] at hx
        exact hx (j3 r hrm h0)
      obtain ⟨g, hg, hi⟩ := hro.exists_empty hown h0
      exact ⟨g, hg, fun h' => absurd h' hx, fun _ => hi⟩
  have := RGroup_nonempty
  choose! G hG1 hG2 hG3 using hgroup
  have hjk : ∀ x ∈ jpis, ∃ record ∈ p.spinGroups, recordKey record = x := by
    intro x hx
    obtain ⟨r, hr, rfl⟩ := j2 x hx
    obtain ⟨record, h1, h2⟩ := hrecord r hr
    exact ⟨record, h1, h2.x.symm⟩
  have hsum : ∀ (f : SpinGroupRecord → RGroup → ℝ) (id : ReactionID),
      (∀ record ∈ p.spinGroups, recordKey record ∈ jpis →
        (F (recordKey record) id).getD 0 = f record (G record)) →
      (∀ record ∈ p.spinGroups, (∀ i, ¬ (G record).isIncident i) → f record (G record) = 0) →
      ((jpis.map F).map fun m => (m id).getD 0).sum = (List.zipWith f p.spinGroups (p.spinGroups.map G)).sum := by
    intro f id a1 a2
    rw [zipWith_map, List.map_map]
    refine sum_keys (key := recordKey) hnodup j1 (fun x hx => ?_) (fun record hr hx => a1 record hr hx)
      fun record hr hx => a2 record hr (hG3 record hr hx)
    obtain ⟨record, hr, rfl⟩ := hjk x hx
    exact List.mem_map_of_mem hr
  obtain ⟨x0, hx0⟩ : ∃ x, x ∈ jpis := by
    obtain ⟨-, groups, hs⟩ := constructed_of_data h
    obtain ⟨hne, -⟩ := makeCompoundSystem_nonempty hs
    obtain ⟨st, hst⟩ := List.exists_mem_of_ne_nil _ hne
    obtain ⟨x, hx, -⟩ := forall₂_mem_right j4 hst
    exact ⟨x, hx⟩
  obtain ⟨record0, hr0, rfl⟩ := hjk x0 hx0
  have k0 := hG2 record0 hr0 hx0
  refine ⟨p.spinGroups.map G, forall₂_map fun record hr => hG1 record hr, ?_, ?_, ?_, k0.1, ?_⟩
  · rw [hid, if_pos ⟨_, List.mem_map_of_mem hx0, k0.2.1.1⟩, Option.getD_none, zero_add]
    congr 1
    refine hsum _ _ (fun record hr hx => (hG2 record hr hx).2.2.2.1) fun record _ hi => ?_
    rw [into_none hi, mul_zero]
  · rw [hid, if_pos ⟨_, List.mem_map_of_mem hx0, k0.2.1.2⟩, Option.getD_none, zero_add]
    congr 1
    refine hsum _ _ (fun record hr hx => (hG2 record hr hx).2.2.2.2.1) fun record _ hi => ?_
    rw [capture_none hi, mul_zero]
  · intro out o1 o2
    have hs := hsum (fun record g => Real.pi / (2 * pair'.reducedMass * |pair'.massRatio * E + q| / K.hbar ^ 2)
        * groupFactor pair' record * g.into K E out) (.transition pair'.id out)
      (fun record hr hx => (hG2 record hr hx).2.2.2.2.2 out o1 o2)
      fun record _ hi => by rw [into_none hi, mul_zero]
    rw [← hs, hid]
    split
    · simp
    · rename_i hno
      symm
      refine List.sum_eq_zero fun z hz => ?_
      obtain ⟨part, hpart, rfl⟩ := List.mem_map.mp hz
      have : part (.transition pair'.id out) = none := by
        by_contra h'
        exact hno ⟨part, hpart, Option.isSome_iff_ne_none.mpr h'⟩
      rw [this]
      rfl
  · intro id hi
    rw [hid] at hi
    split at hi
    · rename_i hex
      obtain ⟨part, hpart, hs⟩ := hex
      obtain ⟨x, hx, rfl⟩ := List.mem_map.mp hpart
      obtain ⟨record, hr, rfl⟩ := hjk x hx
      exact (hG2 record hr hx).2.2.1 id hs
    · cases hi

end Verif.Endf
