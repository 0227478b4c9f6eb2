import Verif.Spec.BreitWignerRange
import Verif.Props.LegacyFormula
import Verif.Props.Endf
import Verif.Lemmas.HardSphere

/-!
# Lemmas on the cross sections of a Breit-Wigner range
-/

namespace Verif

/-! ## Neutron channels -/

section

variable {K : Constants} {lib : CoulombLibrary} {c : Channel} {E v : ℝ}

theorem neutron_eta (ht : c.type = .neutron) : c.eta K E = .ok 0 := by
  unfold Channel.eta
  rw [ht, if_neg (by decide)]

theorem neutron_penetrability (ht : c.type = .neutron) (h : c.penetrability K lib E = .ok v) :
    c.numbers.l ≤ 4 ∧ ∃ radius, c.radii.penetrability E = .ok radius ∧
      v = (Spec.hardSphere (c.waveNumber K E * radius) c.numbers.l).1 := by
  unfold Channel.penetrability at h
  rw [neutron_eta ht] at h
  obtain ⟨_, h0, h⟩ := bind_ok.mp h
  cases h0
  obtain ⟨radius, hr, h⟩ := bind_ok.mp h
  rw [ht] at h
  have hl : c.numbers.l ≤ 4 := by
    by_contra hl
    obtain ⟨n, hn⟩ : ∃ n, c.numbers.l = n + 5 := ⟨c.numbers.l - 5, by omega⟩
    rw [hn] at h
    simp [calculatePenetrability] at h
  rw [calculatePenetrability_eq lib hl] at h
  refine ⟨hl, radius, hr, ?_⟩
  rw [hardSphere_eq hl]
  exact (Except.ok.inj h).symm

theorem neutron_shiftFactor (ht : c.type = .neutron) (hl : c.numbers.l ≤ 4)
    (h : c.shiftFactor K lib E = .ok v) : ∃ radius, c.radii.shiftFactor E = .ok radius ∧
      v = (Spec.hardSphere (c.waveNumber K E * radius) c.numbers.l).2 := by
  unfold Channel.shiftFactor at h
  rw [neutron_eta ht] at h
  obtain ⟨_, h0, h⟩ := bind_ok.mp h
  cases h0
  obtain ⟨radius, hr, h⟩ := bind_ok.mp h
  rw [ht, calculateShiftFactor_eq lib hl] at h
  refine ⟨radius, hr, ?_⟩
  rw [hardSphere_eq hl]
  exact (Except.ok.inj h).symm

theorem neutron_phaseShift (ht : c.type = .neutron) (hl : c.numbers.l ≤ 4)
    (h : c.phaseShift K lib E = .ok v) : ∃ radius, c.radii.phaseShift E = .ok radius ∧
      Complex.exp (2 * Complex.I * v)
        = Spec.hardSpherePhase (c.waveNumber K E * radius) c.numbers.l := by
  unfold Channel.phaseShift at h
  rw [neutron_eta ht] at h
  obtain ⟨_, h0, h⟩ := bind_ok.mp h
  cases h0
  obtain ⟨radius, hr, h⟩ := bind_ok.mp h
  rw [ht] at h
  exact ⟨radius, hr, by rw [hardSpherePhase_eq hl, exp_phase lib hl _ _ _ h]⟩

end

theorem neutron_factor (J I : ℚ) : statisticalSpinFactor J (1 / 2) I = Spec.neutronFactor I J := by
  unfold statisticalSpinFactor Spec.neutronFactor
  rw [show (4 * I + 2 : ℚ) = (2 * I + 1) * 2 by ring, ← div_div]
  ring

/-! ## Lists -/

theorem forall₂_append_left {α β : Type*} {R : α → β → Prop} {as bs : List α} {cs : List β}
    (h : List.Forall₂ R (as ++ bs) cs) :
    ∃ c1 c2, cs = c1 ++ c2 ∧ List.Forall₂ R as c1 ∧ List.Forall₂ R bs c2 := by
  induction as generalizing cs with
  | nil => exact ⟨[], cs, rfl, .nil, h⟩
  | cons a as ih =>
    cases h with
    | cons h1 h2 =>
      obtain ⟨c1, c2, rfl, k1, k2⟩ := ih h2
      exact ⟨_ :: c1, c2, rfl, .cons h1 k1, k2⟩

theorem forall₂_flatten_left {α β : Type*} {R : α → β → Prop} {ass : List (List α)} {bs : List β}
    (h : List.Forall₂ R ass.flatten bs) :
    ∃ bss, bs = bss.flatten ∧ List.Forall₂ (List.Forall₂ R) ass bss := by
  induction ass generalizing bs with
  | nil =>
    cases h
    exact ⟨[], rfl, .nil⟩
  | cons as ass ih =>
    rw [List.flatten_cons] at h
    obtain ⟨c1, c2, rfl, k1, k2⟩ := forall₂_append_left h
    obtain ⟨bss, rfl, k3⟩ := ih k2
    exact ⟨c1 :: bss, rfl, .cons k1 k3⟩

theorem forall₂_sum_eq {α β : Type*} {R : α → β → Prop} {as : List α} {bs : List β} {f : α → ℝ}
    {g : β → ℝ} (h : List.Forall₂ R as bs) (hfg : ∀ a ∈ as, ∀ b, R a b → g b = f a) :
    (bs.map g).sum = (as.map f).sum := by
  induction h with
  | nil => rfl
  | cons h1 _ ih =>
    rw [List.map_cons, List.map_cons, List.sum_cons, List.sum_cons, hfg _ List.mem_cons_self _ h1,
      ih fun a ha => hfg a (List.mem_cons_of_mem _ ha)]

theorem forall₂_trans {α β γ : Type*} {R : α → β → Prop} {S : β → γ → Prop} {as : List α} {bs : List β}
    {cs : List γ} (h1 : List.Forall₂ R as bs) (h2 : List.Forall₂ S bs cs) :
    List.Forall₂ (fun a c => ∃ b, R a b ∧ S b c) as cs := by
  induction h1 generalizing cs with
  | nil =>
    cases h2
    exact .nil
  | cons h _ ih =>
    cases h2 with
    | cons k1 k2 => exact .cons ⟨_, h, k1⟩ (ih k2)

/-- A sum over the values of a key and the elements with that key. -/
theorem sum_by_key {α : Type*} {key : α → ℚ} {l : List α} {xs : List ℚ} (hx : xs.Nodup)
    (hl : ∀ a ∈ l, key a ∈ xs) (w : ℚ → ℝ) (t : α → ℝ) :
    (xs.map fun x => w x * ((l.filter fun a => key a == x).map t).sum).sum
      = (l.map fun a => w (key a) * t a).sum := by
  have hp := ((flatMap_filter_perm key xs hx l hl).map fun a => w (key a) * t a).sum_eq
  rw [← hp, List.map_flatMap, List.flatMap_def, List.sum_flatten, List.map_map]
  congr 1
  refine List.map_congr_left fun x _ => ?_
  simp only [Function.comp]
  rw [← List.sum_map_mul_left]
  congr 1
  have : (l.filter fun a => key a == x) = l.filter fun a => decide (key a = x) := rfl
  rw [this]
  refine List.map_congr_left fun a ha => ?_
  rw [of_decide_eq_true (List.mem_filter.mp ha).2]

namespace Endf

theorem overLValues_ok {L G : Type} {make : L → List QuantumNumbers → Outcome (List G × List QuantumNumbers)}
    {lvs : List L} {available rest : List QuantumNumbers} {groups : List G}
    (h : overLValues make lvs available = .ok (groups, rest)) :
    ∃ gss : List (List G), groups = gss.flatten ∧
      List.Forall₂ (fun lv gs => ∃ a a', make lv a = .ok (gs, a')) lvs gss := by
  induction lvs generalizing available groups rest with
  | nil =>
    unfold overLValues at h
    cases h
    exact ⟨[], rfl, .nil⟩
  | cons lv lvs ih =>
    unfold overLValues at h
    obtain ⟨⟨gs, a1⟩, h1, h⟩ := bind_ok.mp h
    obtain ⟨⟨gs', a2⟩, h2, h⟩ := bind_ok.mp h
    cases h
    obtain ⟨gss, rfl, h3⟩ := ih h2
    exact ⟨gs :: gss, rfl, .cons ⟨_, _, h1⟩ h3⟩

section

variable {K : Constants} {lib : CoulombLibrary}

/-- The group of one J of an l value. -/
structure IsGroup (K : Constants) (lib : CoulombLibrary) (pair : ParticlePair) (radii : ChannelRadii)
    (lv : BreitWignerLValue) (J : ℚ) (g : Verif.BreitWigner.SpinGroup) : Prop where
  channel : ∃ n : QuantumNumbers, n.l = lv.l ∧ n.J = |J| ∧
    g.channel = plainChannel .neutron pair pair n radii
  qx : g.qx = lv.qx
  resonances : List.Forall₂ (fun r res =>
    breitWignerResonance K lib g.channel lv.qx lv.lrx r = .ok res)
      (lv.resonances.filter fun r => r.spin == J) g.resonances

theorem breitWignerGroups_ok {initial : Channel → Verif.BreitWigner.Cache} {pair : ParticlePair}
    {radii : ChannelRadii} {lv : BreitWignerLValue} {Js : List ℚ} {available rest : List QuantumNumbers}
    {groups : List Verif.BreitWigner.SpinGroup}
    (h : breitWignerGroups K lib initial pair radii lv Js available = .ok (groups, rest)) :
    List.Forall₂ (IsGroup K lib pair radii lv) Js groups := by
  induction Js generalizing available groups rest with
  | nil =>
    unfold breitWignerGroups at h
    cases h
    exact .nil
  | cons J Js ih =>
    unfold breitWignerGroups at h
    obtain ⟨⟨n, a1⟩, h1, h⟩ := bind_ok.mp h
    dsimp only at h
    obtain ⟨rs, h2, h⟩ := bind_ok.mp h
    obtain ⟨⟨gs', a2⟩, h3, h⟩ := bind_ok.mp h
    cases h
    obtain ⟨k1, k2, -⟩ := C06_success _ _ _ _ _ h1
    exact .cons ⟨⟨n, k1, k2, rfl⟩, rfl, mapM_ok.mp h2⟩ (ih h3)

/-- The value of an outcome. -/
noncomputable def value (x : Outcome ℝ) : ℝ :=
  match x with
  | .ok v => v
  | .error _ => 0

theorem value_ok {x : Outcome ℝ} {v : ℝ} (h : x = .ok v) : value x = v := by rw [h]; rfl

/-- The channel of an l value, for any of its J values. -/
def lChannel (pair : ParticlePair) (radii : ChannelRadii) (l : ℕ) : Channel :=
  plainChannel .neutron pair pair ⟨l, 0, 0, 1⟩ radii

/-- The partial wave. -/
noncomputable def lWave (K : Constants) (lib : CoulombLibrary) (c : Channel) (qx E : ℝ) : Spec.Wave :=
  ⟨c.numbers.l, value (c.penetrability K lib E), value (c.shiftFactor K lib E),
    value (c.phaseShift K lib E), value (c.penetrability K lib (E - qx))⟩

/-- The parameters of a resonance. -/
noncomputable def lAssigned (K : Constants) (lib : CoulombLibrary) (c : Channel) (qx : ℝ) (lrx : ℤ)
    (r : BreitWignerResonance) : Spec.Assigned :=
  ⟨|r.spin|, ⟨r.energy, r.neutronWidth, r.gammaWidth, r.fissionWidth,
    if lrx ≠ 0 then r.competitiveWidth else 0, value (c.penetrability K lib r.energy),
    value (c.penetrability K lib (if lrx ≠ 0 then r.energy - qx else r.energy)),
    value (c.shiftFactor K lib r.energy)⟩⟩

theorem breitWignerResonance_ok {c : Channel} {qx : ℝ} {lrx : ℤ} {r : BreitWignerResonance}
    {res : Verif.BreitWigner.Resonance} (h : breitWignerResonance K lib c qx lrx r = .ok res) :
    (∃ p, c.penetrability K lib r.energy = .ok p ∧ p ≠ 0) ∧
    (∃ q, c.penetrability K lib (if lrx ≠ 0 then r.energy - qx else r.energy) = .ok q ∧ q ≠ 0) ∧
    (∃ s, c.shiftFactor K lib r.energy = .ok s) ∧
    Verif.BreitWigner.Made (lAssigned K lib c qx lrx r).parameters res := by
  unfold breitWignerResonance at h
  obtain ⟨p, hp, h⟩ := bind_ok.mp h
  have key : ∀ q, (if lrx ≠ 0 then c.penetrability K lib (r.energy - qx) else .ok p) = .ok q →
      c.penetrability K lib (if lrx ≠ 0 then r.energy - qx else r.energy) = .ok q := by
    intro q hq
    by_cases hl : lrx ≠ 0
    · rwa [if_pos hl] at hq ⊢
    · rw [if_neg hl] at hq ⊢
      cases hq
      exact hp
  obtain ⟨q, hq, h⟩ : ∃ q, (if lrx ≠ 0 then c.penetrability K lib (r.energy - qx) else .ok p) = .ok q ∧
      (do
        let s ← c.shiftFactor K lib r.energy
        Verif.BreitWigner.makeResonance r.energy r.neutronWidth r.gammaWidth r.fissionWidth
          (if lrx ≠ 0 then r.competitiveWidth else 0) p q s) = .ok res := by
    by_cases hl : lrx ≠ 0
    · simp only [if_pos hl] at h ⊢
      exact bind_ok.mp h
    · simp only [if_neg hl] at h ⊢
      exact ⟨p, rfl, h⟩
  have hq := key q hq
  obtain ⟨s, hs, h⟩ := bind_ok.mp h
  have hne : p ≠ 0 ∧ q ≠ 0 := by
    unfold Verif.BreitWigner.makeResonance at h
    split at h
    · cases h
    · rename_i hne
      rwa [not_or] at hne
  refine ⟨⟨p, hp, hne.1⟩, ⟨q, hq, hne.2⟩, ⟨s, hs⟩, ?_⟩
  unfold Verif.BreitWigner.Made lAssigned
  rw [value_ok hp, value_ok hq, value_ok hs]
  exact h

/-- The elastic contribution of one group, in units of `π / k²` times its statistical factor. -/
noncomputable def groupElastic (multi : Bool) (E : ℝ) (w : Spec.Wave) (as : List Spec.Assigned) : ℝ :=
  if multi then Complex.normSq (1 - Spec.levelCollision w.φ E (as.map fun a => a.level w))
    - 4 * Real.sin w.φ ^ 2
  else (as.map fun a => a.parameters.elasticTerm E w.p w.q w.s w.φ).sum

/-- The formalism. -/
def formalism (multi : Bool) : Verif.BreitWigner.Formalism :=
  if multi then .multiLevel else .singleLevel

/-- What a group adds to a cross section. -/
noncomputable def added (K : Constants) (multi : Bool) (g : Verif.BreitWigner.SpinGroup)
    (E p q s φ : ℝ) (id : LegacyID) : ℝ :=
  ((Verif.BreitWigner.slbwMap K g E (Verif.BreitWigner.components g E p q s φ) fun _ => none) id).getD 0
    + Verif.BreitWigner.cross K E p q s g id (formalism multi)

theorem group_channel {pair : ParticlePair} {radii : ChannelRadii} {lv : BreitWignerLValue} {J : ℚ}
    {g : Verif.BreitWigner.SpinGroup} (hg : IsGroup K lib pair radii lv J g) :
    g.channel.penetrability K lib = (lChannel pair radii lv.l).penetrability K lib ∧
    g.channel.shiftFactor K lib = (lChannel pair radii lv.l).shiftFactor K lib ∧
    g.channel.phaseShift K lib = (lChannel pair radii lv.l).phaseShift K lib ∧
    g.channel.waveNumber K = (lChannel pair radii lv.l).waveNumber K ∧
    g.channel.spinFactor = statisticalSpinFactor |J| pair.particle.spin pair.residual.spin ∧
    g.channel.numbers.l = lv.l ∧ g.channel.numbers.J = |J| ∧ g.channel.radii = radii ∧
    g.channel.pair = pair := by
  obtain ⟨n, hl, hJ, hc⟩ := hg.channel
  rw [hc, ← hl, ← hJ]
  exact ⟨rfl, rfl, rfl, rfl, rfl, rfl, rfl, rfl, rfl⟩

theorem group_resonances {pair : ParticlePair} {radii : ChannelRadii} {lv : BreitWignerLValue} {J : ℚ}
    {g : Verif.BreitWigner.SpinGroup} (hg : IsGroup K lib pair radii lv J g) :
    List.Forall₂ Verif.BreitWigner.Made ((lv.resonances.filter fun r => r.spin == J).map fun r =>
      (lAssigned K lib (lChannel pair radii lv.l) lv.qx lv.lrx r).parameters) g.resonances := by
  obtain ⟨h1, h2, -⟩ := group_channel hg
  rw [List.forall₂_map_left_iff]
  refine hg.resonances.imp fun r res h => ?_
  have := (breitWignerResonance_ok h).2.2.2
  unfold lAssigned at this ⊢
  rwa [h1, h2] at this

theorem group_values {pair : ParticlePair} {radii : ChannelRadii} {lv : BreitWignerLValue} {J : ℚ}
    {g : Verif.BreitWigner.SpinGroup} {E p q s φ : ℝ} (hg : IsGroup K lib pair radii lv J g)
    (hV : Verif.BreitWigner.Values K lib g E p q s φ) :
    (lChannel pair radii lv.l).penetrability K lib E = .ok p ∧
    (lChannel pair radii lv.l).penetrability K lib (E - lv.qx) = .ok q ∧
    (lChannel pair radii lv.l).shiftFactor K lib E = .ok s ∧
    (lChannel pair radii lv.l).phaseShift K lib E = .ok φ ∧
    lWave K lib (lChannel pair radii lv.l) lv.qx E = ⟨lv.l, p, s, φ, q⟩ := by
  obtain ⟨h1, h2, h3, -⟩ := group_channel hg
  have k1 := hV.penetrability
  have k2 := hV.shiftFactor
  have k3 := hV.phaseShift
  have k4 : g.channel.penetrability K lib (E - lv.qx) = .ok q := by
    have := hV.competition
    unfold Verif.BreitWigner.SpinGroup.competitionPenetrability at this
    rw [hg.qx] at this
    split at this
    · exact this
    · rename_i h0
      rw [not_not] at h0
      rw [h0, sub_zero, k1]
      exact this
  rw [h1] at k1 k4
  rw [h2] at k2
  rw [h3] at k3
  refine ⟨k1, k4, k2, k3, ?_⟩
  unfold lWave
  rw [value_ok k1, value_ok k2, value_ok k3, value_ok k4]
  rfl

theorem group_elastic {pair : ParticlePair} {radii : ChannelRadii} {lv : BreitWignerLValue} {J I : ℚ}
    {g : Verif.BreitWigner.SpinGroup} {E p q s φ : ℝ} (hg : IsGroup K lib pair radii lv J g)
    (hV : Verif.BreitWigner.Values K lib g E p q s φ) (hi : pair.particle.spin = 1 / 2)
    (hI : pair.residual.spin = I) (multi : Bool) :
    let c := lChannel pair radii lv.l
    let w := lWave K lib c lv.qx E
    let as := (lv.resonances.filter fun r => r.spin == J).map (lAssigned K lib c lv.qx lv.lrx)
    let k := Real.pi / c.waveNumber K E ^ 2 * (Spec.neutronFactor I |J| : ℝ)
    let id := fun kind => (⟨pair.particle.id, pair.residual.id, kind⟩ : LegacyID)
    added K multi g E p q s φ (id .elastic) = k * groupElastic multi E w as ∧
    added K multi g E p q s φ (id .capture)
      = k * (as.map fun a => a.parameters.captureTerm E w.p w.q w.s).sum ∧
    added K multi g E p q s φ (id .fission)
      = k * (as.map fun a => a.parameters.fissionTerm E w.p w.q w.s).sum ∧
    ∀ i, (∀ kind, i ≠ id kind) → added K multi g E p q s φ i = 0 := by
  intro c w as k id
  obtain ⟨-, -, -, h4, h5, -, -, -, h9⟩ := group_channel hg
  obtain ⟨-, -, -, -, hw⟩ := group_values hg hV
  have hid : ∀ kind, legacyID g.channel kind = id kind := by
    intro kind
    unfold legacyID
    rw [h9]
  have hk : Verif.BreitWigner.factor K g E = k := by
    unfold Verif.BreitWigner.factor
    rw [h4, h5, hi, hI, neutron_factor, ← pow_two]
  have hw' : w = ⟨lv.l, p, s, φ, q⟩ := hw
  have hmade := group_resonances hg
  have hel := Verif.BreitWigner.map_made (b := fun x => x.elasticTerm E p q s φ) hmade
    (a := fun r => r.elasticAt p * (r.elasticAt p - 2 * r.totalAt p q * (Real.sin φ * Real.sin φ)
        + 2 * (E - r.energyPrime s) * Real.sin (2 * φ))
        / ((E - r.energyPrime s) * (E - r.energyPrime s) + 0.25 * r.totalAt p q * r.totalAt p q))
    (by
      intro x r hr
      obtain ⟨k1, k2, k3, k4, k5, k6⟩ := Verif.BreitWigner.made_values hr E p q s
      rw [k6, k1, k4, k5]
      unfold Spec.Parameters.elasticTerm
      congr 1
      ring)
  have hca := Verif.BreitWigner.map_made (b := fun x => x.captureTerm E p q s) hmade
    (a := fun r => r.capture * r.elasticAt p / ((E - r.energyPrime s) * (E - r.energyPrime s)
        + 0.25 * r.totalAt p q * r.totalAt p q))
    (by
      intro x r hr
      obtain ⟨k1, k2, k3, k4, k5, k6⟩ := Verif.BreitWigner.made_values hr E p q s
      rw [k6, k1, k2]
      unfold Spec.Parameters.captureTerm
      rw [mul_comm])
  have hfi := Verif.BreitWigner.map_made (b := fun x => x.fissionTerm E p q s) hmade
    (a := fun r => r.fission * r.elasticAt p / ((E - r.energyPrime s) * (E - r.energyPrime s)
        + 0.25 * r.totalAt p q * r.totalAt p q))
    (by
      intro x r hr
      obtain ⟨k1, k2, k3, k4, k5, k6⟩ := Verif.BreitWigner.made_values hr E p q s
      rw [k6, k1, k3]
      unfold Spec.Parameters.fissionTerm
      rw [mul_comm])
  have hlev : (g.resonances.map fun r => (⟨r.elasticAt p, r.totalAt p q, r.energyPrime s⟩ : Spec.Level))
      = as.map fun a => a.level w := by
    rw [hw', List.map_map]
    have := hmade
    rw [List.forall₂_map_left_iff] at this
    clear hel hca hfi hmade hk
    generalize lv.resonances.filter (fun r => r.spin == J) = rs at this
    generalize g.resonances = gs at this
    induction this with
    | nil => rfl
    | cons h1 _ ih =>
      obtain ⟨k1, k2, k3, k4, k5, k6⟩ := Verif.BreitWigner.made_values h1 E p q s
      rw [List.map_cons, List.map_cons, ih, k1, k4, k5]
      rfl
  have d1 : id .elastic ≠ id .capture := by simp [id]
  have d2 : id .elastic ≠ id .fission := by simp [id]
  have d3 : id .capture ≠ id .fission := by simp [id]
  have hmulti := Verif.BreitWigner.mlbw_components g E p q s φ hV.denominator
  rw [hlev, Verif.BreitWigner.components_eq, hel, List.map_map] at hmulti
  dsimp only at hmulti
  rw [List.map_map] at hel hca hfi
  unfold added
  simp only [Verif.BreitWigner.slbwMap_getD, Verif.BreitWigner.components_eq, hid, hk, Option.getD_none]
  rw [hel, hca, hfi]
  refine ⟨?_, ?_, ?_, ?_⟩
  · rw [if_true, if_neg d1, if_neg d2]
    cases multi with
    | false =>
      simp only [formalism, Verif.BreitWigner.cross, groupElastic]
      rw [hw']
      simp only [add_zero, zero_add, Bool.false_eq_true, if_false, as, List.map_map]
      rfl
    | true =>
      simp only [formalism, Verif.BreitWigner.cross, groupElastic, if_true, hid, hk]
      rw [hw'] at hmulti ⊢
      simp only
      rw [← hmulti]
      simp only [Function.comp_def]
      ring
  · have : Verif.BreitWigner.cross K E p q s g (id .capture) (formalism multi) = 0 := by
      cases multi <;> simp [formalism, Verif.BreitWigner.cross, hid, d1.symm]
    rw [if_neg d1.symm, if_true, if_neg d3, this, hw', List.map_map]
    simp only [add_zero, zero_add]
    rfl
  · have : Verif.BreitWigner.cross K E p q s g (id .fission) (formalism multi) = 0 := by
      cases multi <;> simp [formalism, Verif.BreitWigner.cross, hid, d2.symm]
    rw [if_neg d2.symm, if_neg d3.symm, if_true, this, hw', List.map_map]
    simp only [add_zero, zero_add]
    rfl
  · intro i hi
    have : Verif.BreitWigner.cross K E p q s g i (formalism multi) = 0 := by
      cases multi <;> simp [formalism, Verif.BreitWigner.cross, hid, hi]
    rw [if_neg (hi _), if_neg (hi _), if_neg (hi _), this]
    simp

/-- A group adds this function to the cross sections. -/
def Adds (K : Constants) (lib : CoulombLibrary) (multi : Bool) (E : ℝ) (g : Verif.BreitWigner.SpinGroup)
    (f : LegacyID → ℝ) : Prop :=
  ∃ p q s φ, Verif.BreitWigner.Values K lib g E p q s φ ∧ f = added K multi g E p q s φ

/-- Sums over the J values. -/
theorem sum_over_J {lv : BreitWignerLValue} (w : ℚ → ℝ) (t : BreitWignerResonance → ℝ) :
    ((sortUnique (lv.resonances.map BreitWignerResonance.spin)).map fun J =>
      w |J| * ((lv.resonances.filter fun r => r.spin == J).map t).sum).sum
      = (lv.resonances.map fun r => w |r.spin| * t r).sum := by
  refine sum_by_key (key := BreitWignerResonance.spin) ?_ ?_ (fun J => w |J|) t
  · exact (sortUnique_sorted _).imp fun h => h.ne
  · intro r hr
    rw [mem_sortUnique]
    exact List.mem_map_of_mem hr

theorem sum_over_abs {lv : BreitWignerLValue}
    (hJ : ((sortUnique (lv.resonances.map BreitWignerResonance.spin)).map fun J => |J|).Nodup)
    (t : ℚ → List BreitWignerResonance → ℝ) :
    ((sortUnique (lv.resonances.map BreitWignerResonance.spin)).map fun J =>
      t |J| (lv.resonances.filter fun r => r.spin == J)).sum
      = ∑ J ∈ (lv.resonances.map fun r => |r.spin|).toFinset,
          t J (lv.resonances.filter fun r => |r.spin| = J) := by
  have hset : (lv.resonances.map fun r => |r.spin|).toFinset
      = ((sortUnique (lv.resonances.map BreitWignerResonance.spin)).map fun J => |J|).toFinset := by
    ext J
    simp [mem_sortUnique]
  rw [hset, List.sum_toFinset _ hJ, List.map_map]
  congr 1
  refine List.map_congr_left fun J hJm => ?_
  simp only [Function.comp]
  congr 1
  refine List.filter_congr fun r hr => ?_
  have hinj := List.inj_on_of_nodup_map hJ
  have hrm : r.spin ∈ sortUnique (lv.resonances.map BreitWignerResonance.spin) := by
    rw [mem_sortUnique]
    exact List.mem_map_of_mem hr
  by_cases h : r.spin = J
  · simp [h]
  · have : |r.spin| ≠ |J| := fun h' => h (hinj hrm hJm h')
    simp [h, this]

theorem level_sum {pair : ParticlePair} {radii : ChannelRadii} {lv : BreitWignerLValue} {I : ℚ}
    {groups : List Verif.BreitWigner.SpinGroup} {fs : List (LegacyID → ℝ)} {E : ℝ} {multi : Bool}
    (hg : List.Forall₂ (IsGroup K lib pair radii lv)
      (sortUnique (lv.resonances.map BreitWignerResonance.spin)) groups)
    (hJ : (groups.map fun g => g.channel.numbers.J).Nodup)
    (hf : List.Forall₂ (Adds K lib multi E) groups fs) (hi : pair.particle.spin = 1 / 2)
    (hI : pair.residual.spin = I) :
    let c := lChannel pair radii lv.l
    let w := lWave K lib c lv.qx E
    let as := lv.resonances.map (lAssigned K lib c lv.qx lv.lrx)
    let k := Real.pi / c.waveNumber K E ^ 2
    let id := fun kind => (⟨pair.particle.id, pair.residual.id, kind⟩ : LegacyID)
    (fs.map fun f => f (id .elastic)).sum = k * Spec.resonantElastic multi I E w as ∧
    (fs.map fun f => f (id .capture)).sum = k * Spec.captureSum I E w as ∧
    (fs.map fun f => f (id .fission)).sum = k * Spec.fissionSum I E w as ∧
    ∀ i, (∀ kind, i ≠ id kind) → (fs.map fun f => f i).sum = 0 := by
  intro c w as k id
  have hcomp := forall₂_trans hg hf
  have hnodup : ((sortUnique (lv.resonances.map BreitWignerResonance.spin)).map fun J => |J|).Nodup := by
    have : ∀ {Js : List ℚ} {gs : List Verif.BreitWigner.SpinGroup},
        List.Forall₂ (IsGroup K lib pair radii lv) Js gs →
        (Js.map fun J => |J|) = gs.map fun g => g.channel.numbers.J := by
      intro Js gs h
      induction h with
      | nil => rfl
      | cons h1 _ ih =>
        obtain ⟨-, -, -, -, -, -, h7, -⟩ := group_channel h1
        rw [List.map_cons, List.map_cons, ih, h7]
    rw [this hg]
    exact hJ
  have key : ∀ J f, (∃ g, IsGroup K lib pair radii lv J g ∧ Adds K lib multi E g f) → _ :=
    fun J f ⟨g, h1, p, q, s, φ, hV, hf⟩ => hf ▸ group_elastic h1 hV hi hI multi
  refine ⟨?_, ?_, ?_, ?_⟩
  · rw [forall₂_sum_eq (f := fun J => k * ((Spec.neutronFactor I |J| : ℝ) * groupElastic multi E w
      ((lv.resonances.filter fun r => r.spin == J).map (lAssigned K lib c lv.qx lv.lrx)))) hcomp
      fun J _ f h => by rw [(key J f h).1, mul_assoc], List.sum_map_mul_left]
    congr 1
    cases multi with
    | false =>
      unfold groupElastic Spec.resonantElastic Spec.singleElastic
      simp only [Bool.false_eq_true, if_false, List.map_map]
      rw [sum_over_J (fun J => (Spec.neutronFactor I J : ℝ)) _, add_sub_cancel_left, List.map_map]
      rfl
    | true =>
      unfold groupElastic Spec.resonantElastic Spec.multiElastic
      simp only [if_true, List.map_map]
      rw [sum_over_abs hnodup (fun J rs => (Spec.neutronFactor I J : ℝ) * (Complex.normSq
        (1 - Spec.levelCollision w.φ E (rs.map ((fun a => Spec.Assigned.level a w) ∘
          lAssigned K lib c lv.qx lv.lrx))) - 4 * Real.sin w.φ ^ 2))]
      have e1 : (as.map Spec.Assigned.J) = lv.resonances.map fun r => |r.spin| := by
        simp only [as, List.map_map]
        rfl
      have e2 : ∀ J, (as.filter fun r => r.J = J).map (fun r => r.level w)
          = (lv.resonances.filter fun r => |r.spin| = J).map ((fun a => Spec.Assigned.level a w) ∘
          lAssigned K lib c lv.qx lv.lrx) := by
        intro J
        simp only [as, List.filter_map, List.map_map]
        rfl
      rw [e1]
      simp only [e2, mul_sub, Finset.sum_sub_distrib]
      rw [← Finset.sum_mul]
      ring
  · rw [forall₂_sum_eq (f := fun J => k * ((Spec.neutronFactor I |J| : ℝ) *
      ((lv.resonances.filter fun r => r.spin == J).map fun r =>
        (lAssigned K lib c lv.qx lv.lrx r).parameters.captureTerm E w.p w.q w.s).sum)) hcomp
      fun J _ f h => by
        rw [(key J f h).2.1, mul_assoc, List.map_map]
        rfl, List.sum_map_mul_left]
    congr 1
    rw [sum_over_J (fun J => (Spec.neutronFactor I J : ℝ)) _]
    simp only [Spec.captureSum, as, List.map_map]
    rfl
  · rw [forall₂_sum_eq (f := fun J => k * ((Spec.neutronFactor I |J| : ℝ) *
      ((lv.resonances.filter fun r => r.spin == J).map fun r =>
        (lAssigned K lib c lv.qx lv.lrx r).parameters.fissionTerm E w.p w.q w.s).sum)) hcomp
      fun J _ f h => by
        rw [(key J f h).2.2.1, mul_assoc, List.map_map]
        rfl, List.sum_map_mul_left]
    congr 1
    rw [sum_over_J (fun J => (Spec.neutronFactor I J : ℝ)) _]
    simp only [Spec.fissionSum, as, List.map_map]
    rfl
  · intro i hid
    rw [forall₂_sum_eq (f := fun J => 0) hcomp fun J _ f h => (key J f h).2.2.2 i hid]
    simp

/-- The wave number. -/
theorem lChannel_waveNumber {neutronMass awri : ℝ} {incident target : Str} {spin : ℚ} {pair : ParticlePair}
    (h : incidentPair neutronMass incident target awri spin = .ok pair) (radii : ChannelRadii) (l : ℕ)
    (E : ℝ) : (lChannel pair radii l).waveNumber K E
      = Spec.neutronWaveNumber (Spec.waveConstant K.hbar neutronMass) awri E := by
  obtain ⟨h1, h2, h3, rfl⟩ := incidentPair_ok h
  have hm : 0 < neutronMass := by
    rcases h1.lt_or_eq with h | h
    · exact h
    · rw [← h] at h3
      simp at h3
  have ha : 0 ≤ awri := nonneg_of_mul_nonneg_left h2 hm
  unfold lChannel plainChannel makeChannel Channel.waveNumber Spec.neutronWaveNumber Spec.waveConstant
  simp only [add_zero]
  have e1 : neutronMass * (awri * neutronMass) / (neutronMass + awri * neutronMass)
      = neutronMass * (awri / (awri + 1)) := by
    field_simp
    ring
  have e2 : awri * neutronMass / (neutronMass + awri * neutronMass) = awri / (awri + 1) := by
    field_simp
    ring
  have h0 : 0 ≤ awri / (awri + 1) := by positivity
  rw [e1, e2, abs_mul, abs_of_nonneg h0, show 2 * (neutronMass * (awri / (awri + 1))) *
    (|E| * (awri / (awri + 1))) = (2 * neutronMass) * |E| * (awri / (awri + 1)) ^ 2 by ring,
    Real.sqrt_mul (by positivity), Real.sqrt_sq h0, Real.sqrt_mul (by positivity)]
  ring

theorem level_wave {pair : ParticlePair} {radii : ChannelRadii} {lv : BreitWignerLValue}
    {groups : List Verif.BreitWigner.SpinGroup} {fs : List (LegacyID → ℝ)} {E : ℝ} {multi : Bool}
    (hg : List.Forall₂ (IsGroup K lib pair radii lv)
      (sortUnique (lv.resonances.map BreitWignerResonance.spin)) groups)
    (hf : List.Forall₂ (Adds K lib multi E) groups fs) (hr : radii.shiftFactor = radii.penetrability)
    (hne : lv.resonances ≠ []) :
    let c := lChannel pair radii lv.l
    lv.l ≤ 4 ∧ Spec.IsPartialWave (c.waveNumber K) radii.penetrability radii.phaseShift E lv
      (lWave K lib c lv.qx E) (lv.resonances.map (lAssigned K lib c lv.qx lv.lrx)) := by
  intro c
  have hcomp := forall₂_trans hg hf
  have hex : ∀ r ∈ lv.resonances, ∃ g f, IsGroup K lib pair radii lv r.spin g ∧
      Adds K lib multi E g f := by
    intro r hr
    obtain ⟨f, -, g, h1, h2⟩ := forall₂_mem_left hcomp
      (mem_sortUnique.mpr (List.mem_map_of_mem (f := BreitWignerResonance.spin) hr))
    exact ⟨g, f, h1, h2⟩
  obtain ⟨r0, hr0⟩ := List.exists_mem_of_ne_nil _ hne
  obtain ⟨g, f, h1, p, q, s, φ, hV, -⟩ := hex r0 hr0
  obtain ⟨k1, k2, k3, k4, k5⟩ := group_values h1 hV
  obtain ⟨hl, a1, e1, v1⟩ := neutron_penetrability rfl k1
  obtain ⟨-, a2, e2, v2⟩ := neutron_penetrability rfl k2
  obtain ⟨a3, e3, v3⟩ := neutron_shiftFactor rfl hl k3
  obtain ⟨a4, e4, v4⟩ := neutron_phaseShift rfl hl k4
  have hl' : lv.l ≤ 4 := hl
  have e3' : radii.penetrability E = .ok a3 := hr ▸ e3
  obtain rfl : a3 = a1 := Except.ok.inj (e3'.symm.trans e1)
  refine ⟨hl, ?_⟩
  rw [k5]
  refine ⟨rfl, ⟨a3, e1, v1, v3⟩, ⟨a4, e4, v4⟩, ⟨a2, e2, v2⟩, ?_⟩
  rw [List.forall₂_map_right_iff, List.forall₂_same]
  intro r hrm
  obtain ⟨g, f, h1, -⟩ := hex r hrm
  obtain ⟨res, -, h2⟩ := forall₂_mem_left h1.resonances (List.mem_filter.mpr ⟨hrm, by simp⟩)
  obtain ⟨⟨p', hp, hp0⟩, ⟨q', hq, hq0⟩, ⟨s', hs⟩, -⟩ := breitWignerResonance_ok h2
  obtain ⟨c1, c2, -⟩ := group_channel h1
  rw [c1] at hp hq
  rw [c2] at hs
  obtain ⟨-, a1, e1, v1⟩ := neutron_penetrability rfl hp
  obtain ⟨-, a2, e2, v2⟩ := neutron_penetrability rfl hq
  obtain ⟨a3, e3, v3⟩ := neutron_shiftFactor rfl hl hs
  have e3' : radii.penetrability r.energy = .ok a3 := hr ▸ e3
  obtain rfl : a3 = a1 := Except.ok.inj (e3'.symm.trans e1)
  refine ⟨rfl, rfl, rfl, rfl, rfl, ?_, ⟨a3, e1, ?_, ?_⟩, fun hx => ?_, ?_, fun hx => ?_⟩
  · simp only [lAssigned]
    split <;> simp_all
  · exact (value_ok hp).trans v1
  · exact (value_ok hs).trans v3
  · rw [if_pos hx] at e2 v2 hq
    refine ⟨a2, e2, ?_⟩
    simp only [lAssigned]
    rw [if_pos hx]
    exact (value_ok hq).trans v2
  · simp only [lAssigned]
    exact (value_ok hp).trans_ne hp0
  · simp only [lAssigned]
    exact (value_ok hq).trans_ne hq0

end

end Endf

end Verif
