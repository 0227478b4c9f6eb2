import Verif.Lemmas.OldBreitWigner
import Verif.Spec.OldSystem

/-!
# Lemmas for the older Breit-Wigner code: whole systems
-/

namespace Verif.Old

open Spec (Assigned Wave neutronFactor IsWave IsAssigned neutronWaveNumber competitiveOffset penetration)

theorem waveNumber_eq (c : WaveConstant) (A E : ℝ) :
    waveNumber c (A / (A + 1)) E = neutronWaveNumber c.value A E := rfl

theorem neutronWaveNumber_abs (c A E : ℝ) : neutronWaveNumber c A |E| = neutronWaveNumber c A E := by
  unfold neutronWaveNumber
  rw [abs_abs]

theorem statisticalFactor_eq (I J : ℚ) : statisticalFactor I J = neutronFactor I J := by
  unfold statisticalFactor neutronFactor
  ring

theorem channelRatioAt_ok {c : WaveConstant} {A E ρ : ℝ} {radius : ℝ → Outcome ℝ}
    (h : channelRatioAt c (A / (A + 1)) radius E = .ok ρ) :
    ∃ a, radius E = .ok a ∧ ρ = neutronWaveNumber c.value A E * a := by
  unfold channelRatioAt at h
  rw [bind_ok] at h
  obtain ⟨a, ha, h⟩ := h
  exact ⟨a, ha, (Except.ok.inj h).symm⟩

theorem competitivePenetrability_ok {l : ℕ} {rho : ℝ → Outcome ℝ} {E q p : ℝ}
    (h : competitivePenetrability l rho E q = .ok p) :
    ∃ ρ, rho (E + q) = .ok ρ ∧ p = penetration l ρ := by
  unfold competitivePenetrability at h
  rw [bind_ok] at h
  obtain ⟨ρ, hρ, h⟩ := h
  rw [bind_ok] at h
  obtain ⟨ps, hps, h⟩ := h
  obtain ⟨-, rfl⟩ := oldPenetrationShift_ok hps
  exact ⟨ρ, hρ, (Except.ok.inj h).symm⟩

theorem makeResonance_ok {e n g f x P S s : ℝ} {r : Resonance}
    (h : makeResonance e n g f x P S s = .ok r) : P ≠ 0 ∧ r = ⟨e, n, g, f, x, 1 / P, S, s⟩ := by
  unfold makeResonance at h
  split at h
  · cases h
  · exact ⟨‹_›, (Except.ok.inj h).symm⟩

variable {c : WaveConstant} {A : ℝ} {channel : ℝ → Outcome ℝ} {I : ℚ} {lv : Endf.BreitWignerLValue}

theorem convertResonance_ok {x : Endf.BreitWignerResonance} {r : Resonance} (hlrx : lv.lrx = 0)
    (h : convertResonance (channelRatioAt c (A / (A + 1)) channel) I lv.l x = .ok r) :
    ∃ a, IsAssigned (neutronWaveNumber c.value A) channel lv x a ∧ Made I a r := by
  unfold convertResonance at h
  rw [bind_ok] at h
  obtain ⟨ρ, hρ, h⟩ := h
  rw [bind_ok] at h
  obtain ⟨ps, hps, h⟩ := h
  obtain ⟨a, ha, rfl⟩ := channelRatioAt_ok hρ
  obtain ⟨-, rfl⟩ := oldPenetrationShift_ok hps
  obtain ⟨hP, rfl⟩ := makeResonance_ok h
  refine ⟨⟨|x.spin|, ⟨x.energy, x.neutronWidth, x.gammaWidth, x.fissionWidth, 0, _, 1, _⟩⟩,
    ⟨rfl, rfl, rfl, rfl, rfl, by rw [if_pos hlrx], ⟨a, by rwa [if_pos hlrx], rfl, rfl⟩,
      fun h => absurd hlrx h⟩,
    ⟨rfl, rfl, rfl, rfl, by simp, hP, rfl, rfl, by rw [statisticalFactor_eq]⟩⟩

theorem convertCompetitive_ok {x : Endf.BreitWignerResonance} {r : Resonance} (hlrx : lv.lrx ≠ 0)
    (h : convertCompetitive (channelRatioAt c (A / (A + 1)) channel) I lv.l (competitiveOffset lv) x
      = .ok r) :
    ∃ a, IsAssigned (neutronWaveNumber c.value A) channel lv x a ∧ Made I a r := by
  unfold convertCompetitive at h
  rw [bind_ok] at h
  obtain ⟨p, hp, h⟩ := h
  split at h
  · cases h
  dsimp only at h
  rw [bind_ok] at h
  obtain ⟨ρ, hρ, h⟩ := h
  rw [bind_ok] at h
  obtain ⟨ps, hps, h⟩ := h
  obtain ⟨ρ', hρ', rfl⟩ := competitivePenetrability_ok hp
  obtain ⟨b, hb, rfl⟩ := channelRatioAt_ok hρ'
  obtain ⟨a, ha, rfl⟩ := channelRatioAt_ok hρ
  rw [neutronWaveNumber_abs] at hps
  obtain ⟨-, rfl⟩ := oldPenetrationShift_ok hps
  obtain ⟨hP, rfl⟩ := makeResonance_ok h
  refine ⟨⟨|x.spin|, ⟨x.energy, x.neutronWidth, x.gammaWidth, x.fissionWidth, x.competitiveWidth, _, _, _⟩⟩,
    ⟨rfl, rfl, rfl, rfl, rfl, by rw [if_neg hlrx], ⟨a, by rwa [if_neg hlrx], rfl, rfl⟩,
      fun _ => ⟨b, hb, rfl⟩⟩,
    ⟨rfl, rfl, rfl, rfl, rfl, hP, rfl, rfl, by rw [statisticalFactor_eq]⟩⟩

theorem mapM_forall₂ {α β γ : Type} {f : α → Outcome β} {R : α → γ → Prop} {M : γ → β → Prop} {l : List α}
    {r : List β} (h : l.mapM f = .ok r) (hf : ∀ a b, f a = .ok b → ∃ c, R a c ∧ M c b) :
    ∃ cs, List.Forall₂ R l cs ∧ List.Forall₂ M cs r := by
  rw [mapM_ok] at h
  induction h with
  | nil => exact ⟨[], .nil, .nil⟩
  | cons h1 _ ih =>
    obtain ⟨cs, i1, i2⟩ := ih
    obtain ⟨c, c1, c2⟩ := hf _ _ h1
    exact ⟨c :: cs, .cons c1 i1, .cons c2 i2⟩

/-- What a converted l value is. -/
structure Converted (c : WaveConstant) (A : ℝ) (channel : ℝ → Outcome ℝ) (I : ℚ)
    (lv : Endf.BreitWignerLValue) (as : List Assigned) (v : LValue) : Prop where
  l : v.l = lv.l
  le : lv.l ≤ 4
  q : v.weightedQValue = if lv.lrx = 0 then none else some (competitiveOffset lv)
  sum : ∃ g, statisticalFactorSummation I lv.l = .ok g ∧ v.statisticalFactorSum = (g : ℝ)
  assigned : List.Forall₂ (IsAssigned (neutronWaveNumber c.value A) channel lv) lv.resonances as
  made : ∃ as', as'.Perm as ∧ List.Forall₂ (Made I) as' v.resonances

theorem makeLValue_ok {rs : List Resonance} {q : Option ℝ} {l : ℕ} {v : LValue}
    (h : makeLValue rs q l I = .ok v) : v.l = l ∧ v.weightedQValue = q ∧ v.resonances = rs ∧
      ∃ g, statisticalFactorSummation I l = .ok g ∧ v.statisticalFactorSum = (g : ℝ) := by
  unfold makeLValue at h
  rw [bind_ok] at h
  obtain ⟨g, hg, h⟩ := h
  obtain rfl := Except.ok.inj h
  exact ⟨rfl, rfl, rfl, g, hg, rfl⟩

theorem convertLValue_ok {v : LValue}
    (h : convertLValue (channelRatioAt c (A / (A + 1)) channel) I lv = .ok v) :
    ∃ as, Converted c A channel I lv as v := by
  unfold convertLValue at h
  split at h
  · cases h
  rename_i hl
  rw [not_lt] at hl
  split at h
  · rename_i hlrx
    split at h
    · cases h
    dsimp only at h
    rw [bind_ok] at h
    obtain ⟨rs, hrs, h⟩ := h
    obtain ⟨h1, h2, rfl, h4⟩ := makeLValue_ok h
    obtain ⟨as, h5, h6⟩ := mapM_forall₂ hrs fun x r hx => convertCompetitive_ok hlrx hx
    exact ⟨as, h1, hl, by rw [h2, if_neg hlrx]; rfl, h4, h5, as, List.Perm.refl _, h6⟩
  · rename_i hlrx
    rw [not_not] at hlrx
    rw [bind_ok] at h
    obtain ⟨rs, hrs, h⟩ := h
    obtain ⟨h1, h2, rfl, h4⟩ := makeLValue_ok h
    obtain ⟨as, h5, h6⟩ := mapM_forall₂ hrs fun x r hx => convertResonance_ok hlrx hx
    exact ⟨as, h1, hl, by rw [h2, if_pos hlrx], h4, h5, as, List.Perm.refl _, h6⟩

theorem Converted.order {as : List Assigned} {v : LValue} (sort : Sorting Resonance.statisticalFactor)
    (h : Converted c A channel I lv as v) : Converted c A channel I lv as (Old.order sort v) := by
  obtain ⟨h1, h2, h3, h4, h5, as', h6, h7⟩ := h
  obtain ⟨as'', h8, h9⟩ := forall₂_perm h7 (sort.perm v.resonances)
  exact ⟨h1, h2, h3, h4, h5, as'', h8.trans h6, h9⟩

/-- What is in a system that has been built. -/
theorem build_ok {sort : Sorting Resonance.statisticalFactor} {level : Level} {bw : Endf.BreitWigner}
    {scattering : ℝ → Outcome ℝ} {S : System} (h : build c sort level bw channel scattering = .ok S) :
    ∃ first rest, bw.lValues = first :: rest ∧ 4 * bw.spin + 2 ≠ 0 ∧
      S.weightRatio = first.awri / (first.awri + 1) ∧ S.targetSpin = bw.spin ∧ S.channelRadius = channel ∧
      S.scatteringRadius = scattering ∧ ∃ ps : List (List Assigned × LValue), ps.map Prod.snd = S.lvalues ∧
      List.Forall₂ (fun lv (p : List Assigned × LValue) =>
        Converted c first.awri channel bw.spin lv p.1 p.2 ∧ (level = .multi →
          p.2.resonances.Pairwise fun a b => a.statisticalFactor ≤ b.statisticalFactor))
        bw.lValues ps := by
  unfold build at h
  split at h
  · cases h
  rename_i first rest hlv
  split at h
  · cases h
  rename_i hne
  rw [not_or] at hne
  dsimp only at h
  rw [bind_ok] at h
  obtain ⟨vs, hvs, h⟩ := h
  obtain rfl := Except.ok.inj h
  refine ⟨first, rest, hlv, hne.2, rfl, rfl, rfl, rfl, ?_⟩
  have key : ∃ ps : List (List Assigned × LValue), ps.map Prod.snd = vs ∧
      List.Forall₂ (fun lv (p : List Assigned × LValue) =>
        Converted c first.awri channel bw.spin lv p.1 p.2) bw.lValues ps := by
    rw [mapM_ok] at hvs
    clear hlv h
    generalize bw.lValues = ls at hvs
    induction hvs with
    | nil => exact ⟨[], rfl, .nil⟩
    | @cons lv v _ _ h1 _ ih =>
      obtain ⟨ps, i1, i2⟩ := ih
      obtain ⟨as, h2⟩ := convertLValue_ok h1
      exact ⟨(as, v) :: ps, by rw [List.map_cons, i1], .cons h2 i2⟩
  obtain ⟨ps, k1, k2⟩ := key
  cases level with
  | single => exact ⟨ps, k1, k2.imp fun lv p h => ⟨h, fun h => by cases h⟩⟩
  | multi =>
    refine ⟨ps.map fun p => (p.1, order sort p.2), ?_, ?_⟩
    · simp only
      rw [← k1, List.map_map, List.map_map]
      rfl
    · rw [List.forall₂_map_right_iff]
      exact k2.imp fun lv p h => ⟨h.order sort, fun _ => sort.sorted _⟩

/-- The elastic value of an l value. -/
def ElasticValue (level : Level) (I : ℚ) (E : ℝ) (w : Wave) (as : List Assigned) (value : ℝ) : Prop :=
  match level with
  | .single => value = Spec.singleElastic I E w as
  | .multi => ∃ d g : ℚ, D I w.l = .ok d ∧ statisticalFactorSummation I w.l = .ok g ∧
    value = Spec.multiElastic I E w as + (d + g - (2 * w.l + 1)) * (4 * Real.sin w.φ ^ 2)

/-- The wave of a converted l value. -/
theorem call_ok {level : Level} {E : ℝ} {scattering : ℝ → Outcome ℝ} {as : List Assigned} {v : LValue}
    {out : Pack 3 ℝ} {a b : ℝ} (hI : 4 * I + 2 ≠ 0) (h : Converted c A channel I lv as v)
    (hsort : level = .multi →
      v.resonances.Pairwise fun a b => a.statisticalFactor ≤ b.statisticalFactor)
    (ha : channel E = .ok a) (hb : scattering E = .ok b)
    (hv : v.call level E (a * waveNumber c (A / (A + 1)) E) (b * waveNumber c (A / (A + 1)) E) I
      (fun e => do
        let radius ← channel e
        pure (waveNumber c (A / (A + 1)) e * radius)) = .ok out) :
    ∃ w, IsWave (neutronWaveNumber c.value A) channel scattering E lv w as ∧
      ElasticValue level I E w as (4 * out 0) ∧
      4 * out 1 = Spec.captureSum I E w as ∧ 4 * out 2 = Spec.fissionSum I E w as := by
  obtain ⟨h1, h2, h3, ⟨g, h4, h5⟩, h6, as', h7, h8⟩ := h
  have hps := oldPenetrationShift_eq (l := v.l) (h1 ▸ h2) (a * waveNumber c (A / (A + 1)) E)
  obtain ⟨φ, hφ⟩ : ∃ φ, oldPhaseShift v.l (b * waveNumber c (A / (A + 1)) E) = .ok φ := by
    obtain ⟨_, _, φ, -, -, -, -, h⟩ := C13_old_equals_new (fun _ _ _ => .ok ⟨0, 0, 0, 0⟩) v.l (h1 ▸ h2)
      (b * waveNumber c (A / (A + 1)) E) 0
    exact ⟨φ, h⟩
  unfold LValue.call at hv
  rw [bind_ok] at hv
  obtain ⟨cw, hcw, hv⟩ := hv
  have hq : ∃ q, (lv.lrx ≠ 0 → ∃ radius, channel (E + competitiveOffset lv) = .ok radius ∧
      q = penetration lv.l (neutronWaveNumber c.value A (E + competitiveOffset lv) * radius)) ∧
      cw = fun r => r.weightedCompetitiveWidth * q := by
    unfold competitiveWidth at hcw
    by_cases hlrx : lv.lrx = 0
    · rw [h3, if_pos hlrx] at hcw
      obtain rfl := Except.ok.inj hcw
      exact ⟨0, fun h => absurd hlrx h, funext fun r => (mul_zero _).symm⟩
    · rw [h3, if_neg hlrx] at hcw
      dsimp only at hcw
      rw [bind_ok] at hcw
      obtain ⟨p, hp, hcw⟩ := hcw
      obtain rfl := Except.ok.inj hcw
      obtain ⟨ρ, hρ, rfl⟩ := competitivePenetrability_ok hp
      obtain ⟨r, hr, rfl⟩ := channelRatioAt_ok hρ
      exact ⟨_, fun _ => ⟨r, hr, by rw [h1]⟩, rfl⟩
  obtain ⟨q, hq1, rfl⟩ := hq
  have hwave : IsWave (neutronWaveNumber c.value A) channel scattering E lv
      ⟨v.l, penetration v.l (a * waveNumber c (A / (A + 1)) E),
        (Spec.hardSphere (a * waveNumber c (A / (A + 1)) E) v.l).2, φ, q⟩ as := by
    refine ⟨h1, ⟨a, ha, ?_, ?_⟩, ⟨b, hb, ?_⟩, hq1, h6⟩
    · rw [mul_comm, waveNumber_eq, h1]
    · rw [mul_comm, waveNumber_eq, h1]
    · rw [oldPhaseShift_ok hφ, mul_comm, waveNumber_eq, h1]
  refine ⟨_, hwave, ?_⟩
  generalize hw : (⟨v.l, penetration v.l (a * waveNumber c (A / (A + 1)) E),
    (Spec.hardSphere (a * waveNumber c (A / (A + 1)) E) v.l).2, φ, q⟩ : Wave) = w
  have hwl : v.l = w.l := by rw [← hw]
  have e1 : Spec.captureSum I E w as' = Spec.captureSum I E w as := (h7.map _).sum_eq
  have e2 : Spec.fissionSum I E w as' = Spec.fissionSum I E w as := (h7.map _).sum_eq
  have hps' : oldPenetrationShift v.l (a * waveNumber c (A / (A + 1)) E) = .ok (w.p, w.s) := by
    rw [hps, ← hw]
  have hφ' : oldPhaseShift v.l (b * waveNumber c (A / (A + 1)) E) = .ok w.φ := by rw [hφ, ← hw]
  have hqw : q = w.q := by rw [← hw]
  rw [hqw] at hv
  cases level with
  | single =>
    obtain ⟨k1, k2, k3⟩ := single_lvalue h8 hps' hφ' hwl hv
    have e0 : Spec.singleElastic I E w as' = Spec.singleElastic I E w as := by
      unfold Spec.singleElastic
      rw [(h7.map _).sum_eq]
    exact ⟨k1.trans e0, k2.trans e1, k3.trans e2⟩
  | multi =>
    obtain ⟨d, k0, k1, k2, k3⟩ := multi_lvalue hI h8 (hsort rfl) hps' hφ' hwl hv
    refine ⟨⟨d, g, k0, by rw [← hwl, h1, h4], ?_⟩, k2.trans e1, k3.trans e2⟩
    rw [k1, multiElastic_perm h7, h5]

end Verif.Old
