import Verif.Lemmas.ReichMooreAccepted
import Verif.Spec.Endf
import Verif.Props.SpinGroup

/-!
# Property C29: Reich-Moore evaluations
-/

namespace Verif

namespace Endf

open Spec

/-- C29: whichever evaluation is converted, the elastic channels of the resulting system are exactly the
sets of quantum numbers of a neutron on the target with l below the number of l values needed for
convergence, each of them once. An elastic channel is one whose pair is the incident pair. -/
theorem C29_elastic_channels {K : Constants} {lib : CoulombLibrary}
    {initial : (g : SpinGroup) → MatrixCache g.channels.length} {neutronMass : ℝ} {incident target : Str}
    {nro : Option (ℝ → Outcome ℝ)} {naps : ℤ} {p : ReichMoore} {s : CompoundSystem}
    (hI : HalfInt p.spin)
    (h : makeReichMooreCompoundSystem K lib initial neutronMass incident target nro naps p = .ok s) :
    let elastic := ((s.flatMap fun state => state.group.channels).filter
      fun c => c.pair.id = c.incident.id).map Channel.numbers
    elastic.Nodup ∧ ∀ q, q ∈ elastic ↔
      q.l < p.nlsc ∧ Couples (1 / 2) p.spin q.s ∧ Couples q.l q.s q.J ∧ q.parity = (-1) ^ q.l := by
  obtain ⟨first, hf, pair, radii, data, remaining, consolidated, h1, h2, h3, h4, h5⟩ :=
    reichMooreSystem_ok.mp h
  obtain ⟨hm, hn, -⟩ := C05_enumeration (1 / 2) p.spin ⟨1, by norm_num⟩ hI p.nlsc
  have hlen : ∀ d ∈ data ++ remaining.map (emptyElastic pair radii),
      d.energies.length = d.widths.length := by
    intro d hd
    rcases List.mem_append.mp hd with hd | hd
    · exact overLValues_forall (fun _ _ _ _ => reichMoore_lengths) h3 d hd
    · obtain ⟨n, -, rfl⟩ := List.mem_map.mp hd
      rfl
  have hp : (((s.flatMap fun state => state.group.channels).filter
      fun c => c.pair.id = c.incident.id).map Channel.numbers).Perm
      (makeQuantumNumbers (1 / 2) p.spin p.nlsc) := by
    refine (elastic_system h5).trans ?_
    rw [elasticNumbers_consolidated hlen h4, elasticNumbers_append, elasticNumbers_empty]
    exact elasticNumbers_overLValues (fun _ _ _ _ => elasticNumbers_lvalue) h3
  exact ⟨hp.nodup_iff.mpr hn, fun q => hp.mem_iff.trans (hm q)⟩

/-- C29, acceptance: an evaluation with usable radii, energies and masses is converted exactly when there is
an l value to consider, its spins can be coupled, and no l has fission widths for both J and -J. -/
theorem C29_accepted {K : Constants} {lib : CoulombLibrary}
    (initial : (g : SpinGroup) → MatrixCache g.channels.length) {neutronMass : ℝ} (incident target : Str)
    {nro : Option (ℝ → Outcome ℝ)} {naps : ℤ} {p : ReichMoore} (hm : 0 < neutronMass)
    (hI : HalfInt p.spin) (hne : p.lValues ≠ []) (hl : (p.lValues.map ReichMooreLValue.l).Nodup)
    (hu : ∀ lv ∈ p.lValues, Usable neutronMass p.ap nro naps lv) :
    (∃ s, makeReichMooreCompoundSystem K lib initial neutronMass incident target nro naps p = .ok s) ↔
      0 < p.nlsc ∧ CoupledSpins p ∧ FissionOnce p := by
  have hcoupled : CoupledSpins p ↔ ∃ r, retrieveAll ((groupsOf p.lValues).map fun x => (x.1.l, x.2))
      (makeQuantumNumbers (1 / 2) p.spin p.nlsc) = .ok r := by
    rw [retrieveAll_groupsOf hI hl]
    constructor
    · intro h lv hlv
      exact ⟨h.possible lv hlv, h.both lv hlv⟩
    · intro h
      exact ⟨fun lv hlv => (h lv hlv).1, fun lv hlv => (h lv hlv).2⟩
  have hfission : FissionOnce p ↔ ∀ lv ∈ p.lValues, ∀ J, J ≠ 0 →
      ¬ (HasFission lv J ∧ HasFission lv (-J)) := by
    constructor
    · rintro h lv hlv J hJ ⟨⟨r, hr, rfl, k1⟩, r', hr', e, k2⟩
      exact h lv hlv r hr r' hr' hJ e ⟨k1, k2⟩
    · rintro h lv hlv r hr r' hr' h0 e ⟨k1, k2⟩
      exact h lv hlv r.spin h0 ⟨⟨r, hr, rfl, k1⟩, r', hr', e, k2⟩
  obtain ⟨first, more, hlv⟩ := List.exists_cons_of_ne_nil hne
  have hfirst := hu first (by rw [hlv]; exact List.mem_cons_self)
  have hpair := incidentPair_eq incident target p.spin hm hfirst.awri.le
  obtain ⟨radii0, k1, -⟩ := hfirst.radii
  obtain ⟨radii, hradii⟩ := makeChannelRadii_exists (ap' := p.ap) k1
  obtain ⟨hmem, hnd, -⟩ := C05_enumeration (1 / 2) p.spin ⟨1, by norm_num⟩ hI p.nlsc
  -- what is left once the lookups have succeeded
  have main : ∀ data remaining, overLValues (makeReichMooreChannelData K lib neutronMass incident target
      p.spin p.ap nro naps) p.lValues (makeQuantumNumbers (1 / 2) p.spin p.nlsc) = .ok (data, remaining) →
      ((∃ consolidated, consolidateChannelData (data ++ remaining.map (emptyElastic ⟨⟨incident, neutronMass, 0,
        1 / 2, 1⟩, ⟨target, first.awri * neutronMass, 0, p.spin, 1⟩, pairID incident target,
        neutronMass * (first.awri * neutronMass) / (neutronMass + first.awri * neutronMass),
        first.awri * neutronMass / (neutronMass + first.awri * neutronMass)⟩ radii)) = .ok consolidated ∧
        ∃ s, makeCompoundSystemFromData initial consolidated = .ok s) ↔ 0 < p.nlsc ∧ FissionOnce p) := by
    intro data remaining h
    generalize hpv : (⟨⟨incident, neutronMass, 0, 1 / 2, 1⟩,
      ⟨target, first.awri * neutronMass, 0, p.spin, 1⟩, pairID incident target,
      neutronMass * (first.awri * neutronMass) / (neutronMass + first.awri * neutronMass),
      first.awri * neutronMass / (neutronMass + first.awri * neutronMass)⟩ : ParticlePair) = pair
    have hpid : pair.id = pairID incident target := by rw [← hpv]
    obtain ⟨blocks, hv, hg, hr, rfl⟩ := overLValues_blocks h
    obtain ⟨hperm, hfor, -⟩ := C06_conservation _ _ _ _ hr
    have hnum : ∀ b ∈ blocks, b.Numbered := by
      intro b hb
      rw [← hg, List.map_map, List.forall₂_map_left_iff, List.forall₂_map_right_iff,
        List.forall₂_same] at hfor
      have hin : b.numbers ∈ makeQuantumNumbers (1 / 2) p.spin p.nlsc :=
        hperm.mem_iff.mp (List.mem_append_left _ (List.mem_map_of_mem hb))
      obtain ⟨-, c1, c2, c3⟩ := (hmem _).mp hin
      have hs := couples_halfInt ⟨1, by norm_num⟩ hI c1
      obtain ⟨e1, e2⟩ := hfor b hb
      exact ⟨e1, e2, by rw [c3, e1]; rfl, hs, couples_halfInt (halfInt_natCast _) hs c2⟩
    have hrem : ∀ n ∈ remaining, Physical n ∧ n.parity = (-1) ^ n.l := by
      intro n hn
      obtain ⟨-, c1, c2, c3⟩ := (hmem _).mp (hperm.mem_iff.mp (List.mem_append_right _ hn))
      have hs := couples_halfInt ⟨1, by norm_num⟩ hI c1
      exact ⟨⟨hs, couples_halfInt (halfInt_natCast _) hs c2⟩, c3⟩
    -- every channel
    have hall : ∀ d ∈ blocks.flatMap Block.data ++ remaining.map (emptyElastic pair radii),
        d.channel.incident.id = pairID incident target ∧ Physical d.channel.numbers ∧
        (∃ name, d.channel.id = makeChannelID name d.channel.numbers) ∧
        d.energies.length = d.widths.length ∧
        (d.channel.numbers.parity = 1 ∨ d.channel.numbers.parity = -1) ∧
        ∃ e ∈ blocks.flatMap Block.data ++ remaining.map (emptyElastic pair radii), e.eliminated = false ∧
          e.channel.pair.id = e.channel.incident.id ∧ e.channel.numbers.J = d.channel.numbers.J ∧
            e.channel.numbers.parity = d.channel.numbers.parity := by
      intro d hd
      rcases List.mem_append.mp hd with hd' | hd'
      · obtain ⟨b, hb, hdb⟩ := List.mem_flatMap.mp hd'
        obtain ⟨c1, ⟨e, he, c2, c3⟩, -⟩ := (hv b hb).channels (hnum b hb)
        obtain ⟨d1, d2, d3, d4, d5, d6⟩ := c1 d hdb
        obtain ⟨-, e2, e3, -⟩ := c1 e he
        refine ⟨d1, d4, d5, d6, by rw [d3]; exact neg_one_pow_eq_or ℤ _, e,
          List.mem_append_left _ (List.mem_flatMap.mpr ⟨b, hb, he⟩), c2, c3, ?_, ?_⟩
        · rw [e2, d2]
        · rw [e3, d3]
      · obtain ⟨n, hn, rfl⟩ := List.mem_map.mp hd'
        refine ⟨hpid, (hrem n hn).1, ⟨_, rfl⟩, rfl, ?_, _, hd, rfl, rfl, rfl, rfl⟩
        have := (hrem n hn).2
        show n.parity = 1 ∨ n.parity = -1
        rw [this]
        exact neg_one_pow_eq_or ℤ _
    have hids : ∀ d ∈ blocks.flatMap Block.data ++ remaining.map (emptyElastic pair radii),
        ∀ e ∈ blocks.flatMap Block.data ++ remaining.map (emptyElastic pair radii),
        d.channel.id = e.channel.id → d.channel.numbers.J = e.channel.numbers.J ∧
          d.channel.numbers.parity = e.channel.numbers.parity := by
      intro d hd e he hde
      obtain ⟨-, d2, ⟨n1, d3⟩, -, d4, -⟩ := hall d hd
      obtain ⟨-, e2, ⟨n2, e3⟩, -, e4, -⟩ := hall e he
      rw [d3, e3, C07_channelID_injective _ _ _ _ d2 e2] at hde
      obtain ⟨-, -, -, h1, h2⟩ := hde
      refine ⟨h1, ?_⟩
      rcases d4 with d4 | d4 <;> rcases e4 with e4 | e4 <;> rw [d4, e4] at h2 ⊢ <;> norm_num at h2
    obtain ⟨merged, hcons, -⟩ := C28_consolidation
      (blocks.flatMap Block.data ++ remaining.map (emptyElastic pair radii)) fun d hd => (hall d hd).2.2.2.1
    have hacc := consolidated_accepted initial (fun d hd => (hall d hd).2.2.2.1)
      (fun d hd => (hall d hd).1) (fun d hd => (hall d hd).2.2.2.2.2) hids hcons
    have hnodup : (((blocks.flatMap Block.data ++ remaining.map (emptyElastic pair radii)).filter
        fun d => ¬ d.eliminated).map fun d => d.channel.id).Nodup ↔ FissionOnce p := by
      rw [(kept_ids hpid hv hnum).nodup_iff, hfission, ← fission_nodup hl hg hnum, List.nodup_append']
      constructor
      · exact fun h => h.2.1
      · intro h
        refine ⟨?_, h, ?_⟩
        · refine List.Nodup.map_on ?_ (hperm.nodup_iff.mpr hnd)
          intro q hq q' hq' e
          obtain ⟨-, c1, c2, c3⟩ := (hmem _).mp (hperm.mem_iff.mp hq)
          obtain ⟨-, c1', c2', c3'⟩ := (hmem _).mp (hperm.mem_iff.mp hq')
          have hs := couples_halfInt ⟨1, by norm_num⟩ hI c1
          have hs' := couples_halfInt ⟨1, by norm_num⟩ hI c1'
          obtain ⟨-, e1, e2, e3, -⟩ := (C07_channelID_injective _ _ _ _
            ⟨hs, couples_halfInt (halfInt_natCast _) hs c2⟩
            ⟨hs', couples_halfInt (halfInt_natCast _) hs' c2'⟩).mp e
          have e4 : q.parity = q'.parity := by rw [c3, c3', e1]
          cases q
          cases q'
          simp_all
        · intro x hx hy
          obtain ⟨q, hq, rfl⟩ := List.mem_map.mp hx
          obtain ⟨b, hb, hy⟩ := List.mem_flatMap.mp hy
          obtain ⟨name, hname, e⟩ := List.mem_map.mp hy
          obtain ⟨-, c1, c2, -⟩ := (hmem _).mp (hperm.mem_iff.mp hq)
          have hs := couples_halfInt ⟨1, by norm_num⟩ hI c1
          have hphys := otherNumbers_physical (l := b.lvalue.l) ((hnum b hb).J ▸ (hnum b hb).physical.2)
          have := ((C07_channelID_injective _ _ _ _ hphys
            ⟨hs, couples_halfInt (halfInt_natCast _) hs c2⟩).mp e).1
          exact pairID_ne_of_not_mem (fissionNames_comma hname) this
    have hempty : blocks.flatMap Block.data ++ remaining.map (emptyElastic pair radii) ≠ [] ↔
        0 < p.nlsc := by
      constructor
      · intro hne'
        obtain ⟨d, hd⟩ := List.exists_mem_of_ne_nil _ hne'
        have : ∃ q, q ∈ makeQuantumNumbers (1 / 2) p.spin p.nlsc := by
          rcases List.mem_append.mp hd with hd | hd
          · obtain ⟨b, hb, -⟩ := List.mem_flatMap.mp hd
            exact ⟨_, hperm.mem_iff.mp (List.mem_append_left _ (List.mem_map_of_mem hb))⟩
          · obtain ⟨n, hn, -⟩ := List.mem_map.mp hd
            exact ⟨_, hperm.mem_iff.mp (List.mem_append_right _ hn)⟩
        obtain ⟨q, hq⟩ := this
        exact lt_of_le_of_lt (Nat.zero_le _) ((hmem q).mp hq).1
      · intro h0 hnil
        obtain ⟨I, hI'⟩ := hI
        have hq : (⟨0, p.spin + 1 / 2, p.spin + 1 / 2, 1⟩ : QuantumNumbers) ∈
            makeQuantumNumbers (1 / 2) p.spin p.nlsc := by
          have hpos : 0 ≤ p.spin := by rw [hI']; positivity
          refine (hmem _).mpr ⟨h0, ⟨?_, by simp only; linarith, I + 1, ?_⟩, ⟨?_, ?_, I + 1, ?_⟩, by simp⟩
          · rw [abs_le]; constructor <;> simp only <;> linarith
          · simp only; rw [hI']; push_cast; ring
          · simp only [Nat.cast_zero, zero_sub, abs_neg]
            rw [abs_of_nonneg (by linarith)]
          · simp
          · simp only; rw [hI']; push_cast; ring
        have hq' := hperm.mem_iff.mpr hq
        have hb : blocks.flatMap Block.data = [] := (List.append_eq_nil_iff.mp hnil).1
        have hr0 : remaining = [] := List.map_eq_nil_iff.mp (List.append_eq_nil_iff.mp hnil).2
        rw [hr0, List.append_nil] at hq'
        obtain ⟨b, hbm, -⟩ := List.mem_map.mp hq'
        obtain ⟨-, ⟨e, he, -⟩, -⟩ := (hv b hbm).channels (hnum b hbm)
        have : e ∈ blocks.flatMap Block.data := List.mem_flatMap.mpr ⟨b, hbm, he⟩
        rw [hb] at this
        cases this
    rw [hempty, hnodup] at hacc
    constructor
    · rintro ⟨consolidated, k2, k3⟩
      rw [hcons] at k2
      obtain rfl := Except.ok.inj k2
      exact hacc.mp k3
    · intro k
      exact ⟨_, hcons, hacc.mpr k⟩
  constructor
  · rintro ⟨s, hs⟩
    obtain ⟨first', hf', pair', radii', data, remaining, consolidated, h1, h2, h3, h4, h5⟩ :=
      reichMooreSystem_ok.mp hs
    obtain rfl : first = first' := by simpa [hlv] using hf'
    rw [hpair] at h1
    rw [hradii] at h2
    obtain rfl := Except.ok.inj h1
    obtain rfl := Except.ok.inj h2
    obtain ⟨e1, e2⟩ := (main data remaining h3).mp ⟨consolidated, h4, s, h5⟩
    obtain ⟨blocks, -, -, hr, -⟩ := overLValues_blocks h3
    exact ⟨e1, hcoupled.mpr ⟨_, hr⟩, e2⟩
  · rintro ⟨h0, hc, hf⟩
    obtain ⟨⟨got, remaining⟩, hr⟩ := hcoupled.mp hc
    obtain ⟨data, hd⟩ := overLValues_exists (K := K) (lib := lib) incident target p.spin hm hu hr
    obtain ⟨consolidated, h4, s, h5⟩ := (main data remaining hd).mpr ⟨h0, hf⟩
    exact ⟨s, reichMooreSystem_ok.mpr ⟨first, by simp [hlv], _, radii, data, remaining, consolidated,
      hpair, hradii, hd, h4, h5⟩⟩

/-! ## Examples -/

namespace Example

/-- Two l values on a target of spin 3/2. For l = 0 the resonances have J = 1 and J = 2, the latter with
a fission width; for l = 1 they have J = 2 for both channel spins. -/
noncomputable def evaluation (width : ℝ) : ReichMoore :=
  ⟨3 / 2, 0.5, 3,
    [⟨0, 35, 0, [⟨10, 2, 1, 1, 0.5, 0⟩, ⟨20, 1, 2, 1, 0, 0⟩, ⟨-5, 2, 1, 1, 0, 0⟩]⟩,
     ⟨1, 35, 0.4, [⟨30, -2, 1, 1, width, 0⟩, ⟨40, 2, 3, 1, 0.25, 0⟩]⟩]⟩

theorem usable (width : ℝ) : ∀ lv ∈ (evaluation width).lValues, Usable 1 (evaluation width).ap none 1 lv := by
  intro lv hlv
  simp only [evaluation, List.mem_cons, List.not_mem_nil, or_false] at hlv
  rcases hlv with rfl | rfl
  · refine ⟨by norm_num, by norm_num, ?_, ?_⟩
    · intro r hr
      simp only [List.mem_cons, List.not_mem_nil, or_false] at hr
      rcases hr with rfl | rfl | rfl <;> norm_num
    · exact ⟨_, rfl, fun r _ => ⟨0.5, by norm_num, by simp [evaluation]⟩⟩
  · refine ⟨by norm_num, by norm_num, ?_, ?_⟩
    · intro r hr
      simp only [List.mem_cons, List.not_mem_nil, or_false] at hr
      rcases hr with rfl | rfl <;> norm_num
    · exact ⟨_, rfl, fun r _ => ⟨0.4, by norm_num, by norm_num⟩⟩

theorem coupled (width : ℝ) : CoupledSpins (evaluation width) := by
  have c1 : Couples (1 / 2) (3 / 2) 1 := ⟨by norm_num [abs_le], by norm_num, 3, by norm_num⟩
  have c2 : Couples (1 / 2) (3 / 2) 2 := ⟨by norm_num [abs_le], by norm_num, 4, by norm_num⟩
  have d1 : Couples ((1 : ℕ) : ℚ) 1 2 := ⟨by norm_num [abs_le], by norm_num, 4, by norm_num⟩
  have d2 : Couples ((1 : ℕ) : ℚ) 2 2 := ⟨by norm_num [abs_le], by norm_num, 5, by norm_num⟩
  have e1 : Couples ((0 : ℕ) : ℚ) 1 1 := ⟨by norm_num [abs_le], by norm_num, 2, by norm_num⟩
  have e2 : Couples ((0 : ℕ) : ℚ) 2 2 := ⟨by norm_num [abs_le], by norm_num, 4, by norm_num⟩
  have a2 : |(2 : ℚ)| = 2 := by norm_num
  constructor
  · intro lv hlv r hr
    simp only [evaluation, List.mem_cons, List.not_mem_nil, or_false] at hlv
    rcases hlv with rfl | rfl
    · simp only [List.mem_cons, List.not_mem_nil, or_false] at hr
      rcases hr with rfl | rfl | rfl
      · exact ⟨by norm_num [evaluation], 2, c2, by simpa [a2] using e2⟩
      · exact ⟨by norm_num [evaluation], 1, c1, by simpa using e1⟩
      · exact ⟨by norm_num [evaluation], 2, c2, by simpa [a2] using e2⟩
    · simp only [List.mem_cons, List.not_mem_nil, or_false] at hr
      rcases hr with rfl | rfl
      · exact ⟨by norm_num [evaluation], 1, c1, by simpa [a2] using d1⟩
      · exact ⟨by norm_num [evaluation], 1, c1, by simpa [a2] using d1⟩
  · intro lv hlv r hr r' hr' h0 hneg
    simp only [evaluation, List.mem_cons, List.not_mem_nil, or_false] at hlv
    rcases hlv with rfl | rfl
    · simp only [List.mem_cons, List.not_mem_nil, or_false] at hr hr'
      rcases hr with rfl | rfl | rfl <;> rcases hr' with rfl | rfl | rfl <;> norm_num at hneg
    · simp only [List.mem_cons, List.not_mem_nil, or_false] at hr
      refine ⟨1, 2, by norm_num, ?_⟩
      have : |r.spin| = 2 := by rcases hr with rfl | rfl <;> norm_num
      rw [this]
      exact ⟨⟨c1, d1⟩, c2, d2⟩

/-- The example is accepted if only one of J = 2 and J = -2 has a fission width. -/
theorem accepted (K : Constants) (lib : CoulombLibrary)
    (initial : (g : SpinGroup) → MatrixCache g.channels.length) :
    ∃ s, makeReichMooreCompoundSystem K lib initial 1 "n".toList "Cl35".toList none 1 (evaluation 0)
      = .ok s := by
  rw [C29_accepted initial "n".toList "Cl35".toList one_pos ⟨3, by norm_num [evaluation]⟩
    (by simp [evaluation]) (by simp [evaluation]) (usable 0)]
  refine ⟨by norm_num [evaluation], coupled 0, ?_⟩
  intro lv hlv r hr r' hr' h0 hneg
  simp only [evaluation, List.mem_cons, List.not_mem_nil, or_false] at hlv
  rcases hlv with rfl | rfl
  · simp only [List.mem_cons, List.not_mem_nil, or_false] at hr hr'
    rcases hr with rfl | rfl | rfl <;> rcases hr' with rfl | rfl | rfl <;> norm_num at hneg
  · simp only [List.mem_cons, List.not_mem_nil, or_false] at hr hr'
    rcases hr with rfl | rfl <;> rcases hr' with rfl | rfl <;> first | (norm_num at hneg; done) | norm_num

/-- Its system has, for instance, an elastic d-wave channel although no resonance is given for it. -/
example (K : Constants) (lib : CoulombLibrary)
    (initial : (g : SpinGroup) → MatrixCache g.channels.length) :
    ∃ s, makeReichMooreCompoundSystem K lib initial 1 "n".toList "Cl35".toList none 1 (evaluation 0)
      = .ok s ∧ (⟨2, 1, 3, 1⟩ : QuantumNumbers) ∈ ((s.flatMap fun state => state.group.channels).filter
        fun c => c.pair.id = c.incident.id).map Channel.numbers := by
  obtain ⟨s, hs⟩ := accepted K lib initial
  refine ⟨s, hs, ((C29_elastic_channels ⟨3, by norm_num [evaluation]⟩ hs).2 _).mpr
    ⟨by norm_num [evaluation], ⟨?_, ?_, 3, ?_⟩, ⟨?_, ?_, 6, ?_⟩, by norm_num⟩⟩ <;>
    norm_num [evaluation, abs_le]

end Example

/-- C29, a limit of the code: an evaluation that gives fission widths for both channel spins of the same
l and J is physically sensible but is rejected, because both fission channels get the same identifier. -/
theorem C29_fission_twice_rejected : ∃ p : ReichMoore, CoupledSpins p ∧
    (∀ lv ∈ p.lValues, Usable 1 p.ap none 1 lv) ∧ HalfInt p.spin ∧ p.lValues ≠ [] ∧ 0 < p.nlsc ∧
    (p.lValues.map ReichMooreLValue.l).Nodup ∧
    ∀ K lib initial, ¬ ∃ s, makeReichMooreCompoundSystem K lib initial 1 "n".toList "Cl35".toList none 1 p
      = .ok s := by
  refine ⟨Example.evaluation 0.5, Example.coupled _, Example.usable _, ⟨3, by norm_num [Example.evaluation]⟩,
    by simp [Example.evaluation], by norm_num [Example.evaluation], by simp [Example.evaluation], ?_⟩
  intro K lib initial
  rw [C29_accepted initial "n".toList "Cl35".toList one_pos ⟨3, by norm_num [Example.evaluation]⟩
    (by simp [Example.evaluation]) (by simp [Example.evaluation]) (Example.usable _)]
  rintro ⟨-, -, h⟩
  refine h _ (List.mem_cons_of_mem _ List.mem_cons_self) _ List.mem_cons_self _
    (List.mem_cons_of_mem _ List.mem_cons_self) ?_ ?_ ⟨Or.inl ?_, Or.inl ?_⟩ <;> norm_num

end Endf

end Verif
