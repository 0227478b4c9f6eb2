import Verif.Lemmas.OldReichMoore
import Verif.Lemmas.OldSystem

/-!
# Lemmas for the older Reich-Moore code: whole systems
-/

namespace Verif.Old.ReichMoore

open Complex
open Spec (Coupled CoupledWave CoupledLevel neutronFactor neutronWaveNumber penetration IsCoupled IsCoupledWave
  lRadius reichMooreCollision collisionOf fissionAmplitude coupledElastic coupledCapture coupledFission)

/-- The resonance has these parameters. -/
structure Made (I : ℚ) (a : Coupled) (r : Resonance) : Prop where
  energy : r.energy = a.energy
  root : r.rootNeutronWidth = Real.sqrt a.elastic
  nonneg : 0 ≤ a.elastic
  captureWidth : r.captureWidth = a.capture
  fissionA : r.rootFissionWidthA = signedRoot a.fissionA
  fissionB : r.rootFissionWidthB = signedRoot a.fissionB
  inverse : r.inverseRootPenetrationFactor = 1 / Real.sqrt a.penetrability
  penetrability : 0 < a.penetrability
  factor : r.flaggedStatisticalFactor = (flaggedStatisticalFactor I a.J : ℝ)

theorem signedRoot_eq (x : ℝ) : signedRoot x = fissionAmplitude x := by
  unfold signedRoot fissionAmplitude
  split
  · rw [abs_of_neg ‹_›, neg_one_mul]
  · rw [abs_of_nonneg (not_lt.mp ‹_›), one_mul]

variable {I : ℚ} {a : Coupled} {r : Resonance}

theorem Made.level (h : Made I a r) {p : ℝ} (hp : 0 ≤ p) : r.level (Real.sqrt p) = a.level p := by
  have h1 : r.rootNeutronWidth * r.inverseRootPenetrationFactor * Real.sqrt p
      = Real.sqrt (a.elastic * p / a.penetrability) := by
    rw [h.root, h.inverse, Real.sqrt_div (mul_nonneg h.nonneg hp), Real.sqrt_mul h.nonneg]
    ring
  rw [Resonance.level, Coupled.level, h1, h.energy, h.captureWidth, h.fissionA, h.fissionB, signedRoot_eq,
    signedRoot_eq]

theorem flagged_abs {I : ℚ} (hI : 0 < 4 * I + 2) (J : ℚ) :
    |((flaggedStatisticalFactor I J : ℚ) : ℝ)| = (neutronFactor I |J| : ℝ) := by
  have h : 0 ≤ neutronFactor I |J| := by
    unfold neutronFactor
    positivity
  have h' : (0 : ℝ) ≤ (neutronFactor I |J| : ℝ) := by exact_mod_cast h
  unfold flaggedStatisticalFactor
  rw [statisticalFactor_eq]
  split
  · rw [Rat.cast_neg, abs_neg, abs_of_nonneg h']
  · exact abs_of_nonneg h'

theorem flagged_inj {I : ℚ} (hI : 0 < 4 * I + 2) :
    Function.Injective fun J => ((flaggedStatisticalFactor I J : ℚ) : ℝ) := by
  have hpos : ∀ J : ℚ, 0 < statisticalFactor I |J| := fun J => by
    rw [statisticalFactor_eq]
    unfold neutronFactor
    positivity
  intro J J' h
  have h : flaggedStatisticalFactor I J = flaggedStatisticalFactor I J' := by
    simp only at h
    exact_mod_cast h
  have hJ := hpos J
  have hJ' := hpos J'
  have hinj : statisticalFactor I |J| = statisticalFactor I |J'| → |J| = |J'| := by
    intro h
    unfold statisticalFactor at h
    have := mul_right_cancel₀ (b := 1 / (4 * I + 2)) (by positivity) h
    linarith
  unfold flaggedStatisticalFactor at h
  split at h <;> split at h
  · rename_i h1 h2
    have := hinj (by linarith)
    rw [abs_of_neg h1, abs_of_neg h2] at this
    linarith
  · linarith
  · linarith
  · rename_i h1 h2
    have := hinj h
    rwa [abs_of_nonneg (not_lt.mp h1), abs_of_nonneg (not_lt.mp h2)] at this

/-- A group of resonances with the same J. -/
theorem group_ok {w : CoupledWave} {E : ℝ} {J : ℚ} {x : Pack 4 ℝ} {as : List Coupled} {rs : List Resonance}
    (hI : 0 < 4 * I + 2) (hp : 0 ≤ w.p)
    (h : List.Forall₂ (fun a r => Made I a r ∧ 0 ≤ a.capture) (as.filter fun a => a.J = J) rs)
    (hx : evaluateGroup E (Real.sqrt w.p) w.φ rs = .ok x) :
    x = groupValue (neutronFactor I |J| : ℝ) (collisionOf E w as J) := by
  have hl : rs.map (Resonance.level (Real.sqrt w.p))
      = (as.filter fun a => a.J = J).map (Coupled.level w.p) := by
    clear hx
    generalize (as.filter fun a => a.J = J) = bs at h
    induction h with
    | nil => rfl
    | cons h1 _ ih => rw [List.map_cons, List.map_cons, ih, h1.1.level hp]
  have hJ : ∀ a ∈ as.filter fun a => a.J = J, a.J = J := by simp
  unfold collisionOf
  rw [← hl]
  clear hl
  generalize (as.filter fun a => a.J = J) = bs at h hJ
  cases h with
  | nil =>
    rw [evaluateGroup] at hx
    cases hx
  | @cons b r bs rs h1 h2 =>
    have hc : ∀ x ∈ r :: rs, 0 ≤ x.captureWidth := by
      intro x hx
      have h3 : List.Forall₂ (fun a r => Made I a r ∧ 0 ≤ a.capture) (b :: bs) (r :: rs) := .cons h1 h2
      obtain ⟨b', -, hb⟩ := forall₂_mem h3.flip hx
      have hb : Made I b' x ∧ 0 ≤ b'.capture := hb
      rw [hb.1.captureWidth]
      exact hb.2
    rw [(evaluateGroup_ok hc hx).2, h1.1.factor, hJ b List.mem_cons_self, flagged_abs hI]

theorem collisionOf_perm {E : ℝ} {w : CoupledWave} {as as' : List Coupled} (h : as.Perm as') (J : ℚ) :
    collisionOf E w as J = collisionOf E w as' J := by
  have hK : Spec.reichMooreK E ((as.filter fun a => a.J = J).map (Coupled.level w.p))
      = Spec.reichMooreK E ((as'.filter fun a => a.J = J).map (Coupled.level w.p)) := by
    ext i j
    simp only [Spec.reichMooreK, Matrix.of_apply]
    exact (((h.filter _).map _).map _).sum_eq
  unfold collisionOf reichMooreCollision
  rw [hK]

theorem lvalue_ok {w : CoupledWave} {E channelRatio scatteringRatio : ℝ} {out : Pack 3 ℝ} {v : LValue}
    {as as' : List Coupled} (hI : 0 < 4 * I + 2)
    (hm : List.Forall₂ (fun a r => Made I a r ∧ 0 ≤ a.capture) as' v.resonances) (hperm : as'.Perm as)
    (hsort : v.resonances.Pairwise fun a b => a.flaggedStatisticalFactor ≤ b.flaggedStatisticalFactor)
    (hw : w.p = penetration v.l channelRatio) (hφ : oldPhaseShift v.l scatteringRatio = .ok w.φ)
    (hl : v.l = w.l) (h : v.call E channelRatio scatteringRatio = .ok out) :
    out 0 = coupledElastic I E w as ∧ out 1 = coupledCapture I E w as ∧ out 2 = coupledFission I E w as := by
  have hp : 0 ≤ w.p := hw ▸ penetration_nonneg _ _
  unfold LValue.call at h
  rw [bind_ok] at h
  obtain ⟨ps, hps, h⟩ := h
  obtain ⟨-, rfl⟩ := oldPenetrationShift_ok hps
  dsimp only at h
  rw [hφ, bind_ok] at h
  obtain ⟨_, e, h⟩ := h
  obtain rfl := Except.ok.inj e
  rw [bind_ok, ← hw] at h
  obtain ⟨vs, hvs, h⟩ := h
  obtain rfl := Except.ok.inj h
  have hs := fun i : Fin 4 => group_sum (c := 1) (flagged_inj hI)
    (fun a r (h : Made I a r ∧ 0 ≤ a.capture) => h.1.factor) hm hsort hvs
    (F := fun J => groupValue (neutronFactor I |J| : ℝ) (collisionOf E w as' J) i) i
    fun J rs x hrs hx => by rw [group_ok hI hp hrs hx, one_mul]
  have hset : (as'.map Coupled.J).toFinset = (as.map Coupled.J).toFinset := by
    ext J
    simp only [List.mem_toFinset, (hperm.map Coupled.J).mem_iff]
  simp only [one_mul, collisionOf_perm hperm, hset] at hs
  simp only [Pack.foldl_eq, Matrix.cons_val_zero, Matrix.cons_val_one, Matrix.cons_val, zero_add, hs]
  refine ⟨?_, ?_, ?_⟩
  · unfold coupledElastic
    simp only [groupValue, Matrix.cons_val_zero, Matrix.cons_val_one, Matrix.cons_val]
    rw [hl]
    ring
  · unfold coupledCapture
    simp only [← groupValue_capture, Finset.sum_sub_distrib]
  · rfl

/-! ## From ENDF data -/

variable {c : WaveConstant} {A : ℝ} {channel scattering : ℝ → Outcome ℝ} {lv : Endf.ReichMooreLValue}

theorem convertResonance_ok {k : ℝ → ℝ} (hk : ∀ E, k |E| = k E) {use : Bool} {l : ℕ}
    {x : Endf.ReichMooreResonance} {r : Resonance}
    (h : convertResonance (fun energy => do
      let r ← if lv.apl ≠ 0 ∧ use then constantRadius lv.apl energy else channel energy
      pure (r * k energy)) I l x = .ok r) :
    ∃ a, IsCoupled k (lRadius use lv channel) l x a ∧ Made I a r := by
  unfold convertResonance at h
  dsimp only at h
  rw [bind_ok] at h
  obtain ⟨ρ, hρ, h⟩ := h
  rw [bind_ok] at h
  obtain ⟨ps, hps, h⟩ := h
  obtain ⟨a, ha', rfl⟩ : ∃ a, lRadius use lv channel |x.energy| = .ok a ∧ ρ = a * k |x.energy| := by
    unfold lRadius
    by_cases hu : lv.apl ≠ 0 ∧ use = true
    · rw [if_pos hu] at hρ
      rw [if_pos ⟨hu.2, hu.1⟩]
      exact ⟨lv.apl, rfl, (Except.ok.inj hρ).symm⟩
    · rw [if_neg hu, bind_ok] at hρ
      rw [if_neg fun h => hu ⟨h.2, h.1⟩]
      obtain ⟨a, ha, hρ⟩ := hρ
      exact ⟨a, ha, (Except.ok.inj hρ).symm⟩
  rw [hk, mul_comm] at hps
  obtain ⟨-, rfl⟩ := oldPenetrationShift_ok hps
  unfold makeResonance at h
  split at h
  · cases h
  rename_i hne
  push Not at hne
  obtain rfl := Except.ok.inj h
  refine ⟨⟨x.spin, x.energy, x.neutronWidth, x.gammaWidth, x.firstFissionWidth, x.secondFissionWidth, _⟩,
    ⟨rfl, rfl, rfl, rfl, rfl, rfl, a, ha', rfl⟩, ⟨rfl, rfl, hne.1, rfl, rfl, rfl, rfl, hne.2, rfl⟩⟩

/-- What a converted l value is. -/
structure Converted (c : WaveConstant) (A : ℝ) (channel : ℝ → Outcome ℝ) (I : ℚ) (use : Bool)
    (lv : Endf.ReichMooreLValue) (as : List Coupled) (v : LValue) : Prop where
  l : v.l = lv.l
  le : lv.l ≤ 4
  ap : v.ap = if lv.apl ≠ 0 then some lv.apl else none
  assigned : List.Forall₂ (IsCoupled (neutronWaveNumber c.value A) (lRadius use lv channel) lv.l)
    lv.resonances as
  made : ∃ as', as'.Perm as ∧ List.Forall₂ (Made I) as' v.resonances

theorem convertLValue_ok {use : Bool} {v : LValue}
    (h : convertLValue (waveNumber c (A / (A + 1))) channel I use lv = .ok v) :
    ∃ as, Converted c A channel I use lv as v := by
  unfold convertLValue at h
  split at h
  · cases h
  rename_i hl
  dsimp only at h
  rw [bind_ok] at h
  obtain ⟨rs, hrs, h⟩ := h
  obtain rfl := Except.ok.inj h
  obtain ⟨as, h1, h2⟩ := mapM_forall₂ hrs fun x r hx =>
    convertResonance_ok (fun E => neutronWaveNumber_abs c.value A E) hx
  exact ⟨as, rfl, not_lt.mp hl, rfl, h1, as, List.Perm.refl _, h2⟩

theorem Converted.order {use : Bool} {as : List Coupled} {v : LValue}
    (sort : Sorting Resonance.flaggedStatisticalFactor) (h : Converted c A channel I use lv as v) :
    Converted c A channel I use lv as (ReichMoore.order sort v) := by
  obtain ⟨h1, h2, h3, h5, as', h6, h7⟩ := h
  obtain ⟨as'', h8, h9⟩ := forall₂_perm h7 (sort.perm v.resonances)
  exact ⟨h1, h2, h3, h5, as'', h8.trans h6, h9⟩

theorem build_ok {sort : Sorting Resonance.flaggedStatisticalFactor} {rm : Endf.ReichMoore} {tag : Tag}
    {use : Bool} {S : System} (h : build c sort rm tag channel scattering use = .ok S) :
    ∃ first rest, rm.lValues = first :: rest ∧ 4 * rm.spin + 2 ≠ 0 ∧
      S.weightRatio = first.awri / (first.awri + 1) ∧ S.tag = tag ∧ S.channelRadius = channel ∧
      S.scatteringRadius = scattering ∧ ∃ ps : List (List Coupled × LValue), ps.map Prod.snd = S.lvalues ∧
      List.Forall₂ (fun lv (p : List Coupled × LValue) =>
        Converted c first.awri channel rm.spin use lv p.1 p.2 ∧
          p.2.resonances.Pairwise fun a b => a.flaggedStatisticalFactor ≤ b.flaggedStatisticalFactor)
        rm.lValues ps := by
  unfold build at h
  split at h
  · cases h
  rename_i first rest hlv
  split at h
  · cases h
  rename_i hne
  rw [not_or] at hne
  dsimp only at h
  rw [bind_ok] at h
  obtain ⟨vs, hvs, h⟩ := h
  obtain rfl := Except.ok.inj h
  refine ⟨first, rest, hlv, hne.2, rfl, rfl, rfl, rfl, ?_⟩
  have key : ∃ ps : List (List Coupled × LValue), ps.map Prod.snd = vs ∧
      List.Forall₂ (fun lv (p : List Coupled × LValue) =>
        Converted c first.awri channel rm.spin use lv p.1 p.2) rm.lValues ps := by
    rw [mapM_ok] at hvs
    clear hlv h
    generalize rm.lValues = ls at hvs
    induction hvs with
    | nil => exact ⟨[], rfl, .nil⟩
    | @cons lv v _ _ h1 _ ih =>
      obtain ⟨ps, i1, i2⟩ := ih
      obtain ⟨as, h2⟩ := convertLValue_ok h1
      exact ⟨(as, v) :: ps, by rw [List.map_cons, i1], .cons h2 i2⟩
  obtain ⟨ps, k1, k2⟩ := key
  refine ⟨ps.map fun p => (p.1, order sort p.2), ?_, ?_⟩
  · simp only
    rw [← k1, List.map_map, List.map_map]
    rfl
  · rw [List.forall₂_map_right_iff]
    exact k2.imp fun lv p h => ⟨h.order sort, sort.sorted _⟩

/-- Whether an l value's own radius replaces the channel radius, and the scattering radius. -/
def Tag.channel? : Tag → Bool
  | .both | .channel => true
  | _ => false

/-- Whether it replaces the scattering radius. -/
def Tag.scattering? : Tag → Bool
  | .both | .scattering => true
  | _ => false

theorem inspect_ok {tag : Tag} {E k a b : ℝ} {v : LValue} {out : Pack 3 ℝ}
    (hap : v.ap = if lv.apl ≠ 0 then some lv.apl else none) (ha : channel E = .ok a)
    (hb : scattering E = .ok b) (h : inspect tag E k (k * a) (k * b) v = .ok out) :
    ∃ a' b', lRadius tag.channel? lv channel E = .ok a' ∧ lRadius tag.scattering? lv scattering E = .ok b' ∧
      v.call E (k * a') (k * b') = .ok out := by
  by_cases h0 : lv.apl ≠ 0
  · rw [if_pos h0] at hap
    cases tag
    · exact ⟨lv.apl, lv.apl, by simp [lRadius, Tag.channel?, h0], by simp [lRadius, Tag.scattering?, h0],
        by simpa [inspect, hap] using h⟩
    · exact ⟨a, b, by simp [lRadius, Tag.channel?, ha], by simp [lRadius, Tag.scattering?, hb],
        by simpa [inspect, hap] using h⟩
    · exact ⟨lv.apl, b, by simp [lRadius, Tag.channel?, h0], by simp [lRadius, Tag.scattering?, hb],
        by simpa [inspect, hap] using h⟩
    · exact ⟨a, lv.apl, by simp [lRadius, Tag.channel?, ha], by simp [lRadius, Tag.scattering?, h0],
        by simpa [inspect, hap] using h⟩
  · rw [if_neg h0] at hap
    rw [not_not] at h0
    refine ⟨a, b, by simp [lRadius, h0, ha], by simp [lRadius, h0, hb], ?_⟩
    cases tag <;> simpa [inspect, hap] using h

/-- The wave of a converted l value. -/
theorem wave_ok {tag : Tag} {E a b : ℝ} {as : List Coupled} {v : LValue} {out : Pack 3 ℝ}
    (hI : 0 < 4 * I + 2) (h : Converted c A channel I tag.channel? lv as v)
    (hsort : v.resonances.Pairwise fun a b => a.flaggedStatisticalFactor ≤ b.flaggedStatisticalFactor)
    (hcap : ∀ r ∈ lv.resonances, 0 ≤ r.gammaWidth) (ha : channel E = .ok a) (hb : scattering E = .ok b)
    (hv : inspect tag E (waveNumber c (A / (A + 1)) E) (waveNumber c (A / (A + 1)) E * a)
      (waveNumber c (A / (A + 1)) E * b) v = .ok out) :
    ∃ w, IsCoupledWave (neutronWaveNumber c.value A) (lRadius tag.channel? lv channel)
        (lRadius tag.scattering? lv scattering) E lv w as ∧
      out 0 = coupledElastic I E w as ∧ out 1 = coupledCapture I E w as ∧ out 2 = coupledFission I E w as := by
  obtain ⟨a', b', ha', hb', hv⟩ := inspect_ok h.ap ha hb hv
  obtain ⟨φ, hφ⟩ : ∃ φ, oldPhaseShift v.l (waveNumber c (A / (A + 1)) E * b') = .ok φ := by
    obtain ⟨_, _, φ, -, -, -, -, h⟩ := C13_old_equals_new (fun _ _ _ => .ok ⟨0, 0, 0, 0⟩) v.l (h.l ▸ h.le)
      (waveNumber c (A / (A + 1)) E * b') 0
    exact ⟨φ, h⟩
  refine ⟨⟨v.l, penetration v.l (waveNumber c (A / (A + 1)) E * a'), φ⟩,
    ⟨h.l, ⟨a', ha', by rw [← h.l, waveNumber_eq]⟩, ⟨b', hb', by rw [oldPhaseShift_ok hφ, waveNumber_eq, h.l]⟩,
      h.assigned⟩, ?_⟩
  obtain ⟨as', hp, hm⟩ := h.made
  have hm' : List.Forall₂ (fun a r => Made I a r ∧ 0 ≤ a.capture) as' v.resonances := by
    have hall : ∀ a ∈ as', 0 ≤ a.capture := by
      intro a ha
      obtain ⟨r, hr, hra⟩ := forall₂_mem h.assigned.flip (hp.mem_iff.mp ha)
      have hra : IsCoupled _ _ _ r a := hra
      rw [hra.capture]
      exact hcap r hr
    clear hp hsort hv
    generalize v.resonances = rs at hm
    induction hm with
    | nil => exact .nil
    | cons h1 _ ih =>
      exact .cons ⟨h1, hall _ List.mem_cons_self⟩ (ih fun a ha => hall a (List.mem_cons_of_mem _ ha))
  exact lvalue_ok hI hm' hp hsort rfl hφ rfl hv

end Verif.Old.ReichMoore
