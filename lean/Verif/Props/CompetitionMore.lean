import Verif.Props.Competition

/-!
# Property C71: competitive widths, the flag LRX and the older code
-/

namespace Verif.Endf

open Spec

variable {K : Constants} {lib : CoulombLibrary} {tables : InterpolationLibrary}
  {initialBreitWigner : Channel → Verif.BreitWigner.Cache} {neutronMass E : ℝ} {incident target : Str}
  {reactions : ReactionLibrary} {initial : (g : SpinGroup) → MatrixCache g.channels.length}
  {elementaryCharge : ℝ} {range : Range} {R R' R₁ R₁' : Reconstructor} {m m' : ReactionMap}
  {nro : Option (ℝ → Outcome ℝ)} {multi : Bool} {p : BreitWigner}

/-! ## Without the flag LRX -/

theorem same_closed {k : ℝ → ℝ} {channel scattering channel' scattering' : ℝ → Outcome ℝ}
    {lv : BreitWignerLValue} {w w' : Wave} {as bs : List Assigned} (hx : lv.lrx = 0)
    (hc : ∀ e, channel e = channel' e) (hs : ∀ e, scattering e = scattering' e)
    (hw : IsPartialWave k channel scattering E lv w as)
    (hw' : IsPartialWave k channel' scattering' E (noCompetition lv) w' bs) :
    SameWave w w' ∧ List.Forall₂ Same as bs := by
  obtain ⟨x, h1, h2, h3⟩ := hw.own
  obtain ⟨y, h4, h5, h6⟩ := hw'.own
  rw [hc, h4] at h1
  obtain rfl := Except.ok.inj h1
  obtain ⟨x, h7, h8⟩ := hw.phase
  obtain ⟨y, h9, h10⟩ := hw'.phase
  rw [hs, h9] at h7
  obtain rfl := Except.ok.inj h7
  refine ⟨⟨hw.l.trans hw'.l.symm, h2.trans h5.symm, h3.trans h6.symm, h8.trans h10.symm⟩, ?_⟩
  have k1 := hw.resonances
  have k2 : List.Forall₂ (IsResonance k channel' (noCompetition lv))
    (lv.resonances.map fun r => { r with competitiveWidth := 0 }) bs := hw'.resonances
  clear hw hw'
  generalize lv.resonances = rs at k1 k2
  induction k1 generalizing bs with
  | nil => cases k2; exact .nil
  | @cons r a _ _ ha _ ih =>
    cases k2 with
    | @cons _ b _ _ hb g3 =>
      refine .cons ?_ (ih g3)
      obtain ⟨y1, f1, f2, f3⟩ := ha.own
      obtain ⟨y2, f4, f5, f6⟩ := hb.own
      rw [← hc] at f4
      have f4 : channel r.energy = .ok y2 := f4
      rw [f1] at f4
      obtain rfl := Except.ok.inj f4
      exact ⟨ha.J.trans hb.J.symm, ha.energy.trans hb.energy.symm, ha.elastic.trans hb.elastic.symm,
        ha.capture.trans hb.capture.symm, ha.fission.trans hb.fission.symm, f2.trans f5.symm,
        f3.trans f6.symm, ha.competition.trans (if_pos hx), hb.competition.trans (if_pos hx)⟩

theorem zip_sum_eq {lvs : List BreitWignerLValue} {ws ws' : List (Wave × List Assigned)}
    {P P' : BreitWignerLValue → Wave × List Assigned → Prop}
    {f g : BreitWignerLValue → Wave × List Assigned → ℝ}
    (h : List.Forall₂ P lvs ws) (h' : List.Forall₂ P' (lvs.map noCompetition) ws')
    (he : ∀ lv ∈ lvs, ∀ w w', P lv w → P' (noCompetition lv) w' → f lv w = g (noCompetition lv) w') :
    (List.zipWith f lvs ws).sum = (List.zipWith g (lvs.map noCompetition) ws').sum := by
  have h1 := (zip_sum (f := f) (g := g) h h' fun lv hlv w w' hw hw' => (he lv hlv w w' hw hw').le).1
  have h2 := (zip_sum (f := fun lv w => -f lv w) (g := fun lv w => -g lv w) h h' fun lv hlv w w' hw hw' =>
    (neg_le_neg (he lv hlv w w' hw hw').ge)).1
  have hn : ∀ (f : BreitWignerLValue → Wave × List Assigned → ℝ) (lvs : List BreitWignerLValue)
      (ws : List (Wave × List Assigned)),
      (List.zipWith (fun lv w => -f lv w) lvs ws).sum = -(List.zipWith f lvs ws).sum := by
    intro f lvs
    induction lvs with
    | nil => intro ws; simp
    | cons lv lvs ih =>
      intro ws
      cases ws with
      | nil => simp
      | cons w ws => simp only [List.zipWith_cons_cons, List.sum_cons, ih]; ring
  rw [hn, hn] at h2
  linarith

/-- The first l value with resonances is unique. -/
theorem first_unique {lvs before after before' after' : List BreitWignerLValue} {lv lv' : BreitWignerLValue}
    (h : lvs = before ++ lv :: after) (hb : ∀ x ∈ before, x.resonances = []) (hl : lv.resonances ≠ [])
    (h' : lvs.map noCompetition = before' ++ lv' :: after') (hb' : ∀ x ∈ before', x.resonances = [])
    (hl' : lv'.resonances ≠ []) : lv' = noCompetition lv := by
  subst h
  induction before generalizing before' with
  | nil =>
    cases before' with
    | nil => exact (List.cons.inj h').1.symm
    | cons b before' =>
      have e : noCompetition lv = b := (List.cons.inj h').1
      have := hb' b List.mem_cons_self
      rw [← e] at this
      exact absurd (by simpa [noCompetition] using this) hl
  | cons b before ih =>
    cases before' with
    | nil =>
      have e : noCompetition b = lv' := (List.cons.inj h').1
      have := hb b List.mem_cons_self
      rw [← e] at hl'
      exact absurd (by simp [noCompetition, this]) hl'
    | cons b' before' =>
      exact ih (fun x hx => hb x (List.mem_cons_of_mem _ hx)) (fun x hx => hb' x (List.mem_cons_of_mem _ hx))
        (List.cons.inj h').2

/-- C71: competitive widths are ignored if the flag LRX is not set. -/
theorem C71_flag_partial
    (hR : fromENDF K lib tables reactions initialBreitWigner initial neutronMass elementaryCharge incident
      target range = .ok R)
    (hR' : fromENDF K lib tables reactions initialBreitWigner initial neutronMass elementaryCharge incident
      target { range with parameters :=
        if multi then .multiLevel (withoutCompetition p) else .singleLevel (withoutCompetition p) } = .ok R')
    (hp : range.parameters = if multi then .multiLevel p else .singleLevel p)
    (hn : prescribedRadii range.scatteringRadius.isSome range.naps ≠ none)
    (hE : range.lower ≤ E ∧ E ≤ range.upper) (hm : R.call K lib E = .ok (m, R₁))
    (hm' : R'.call K lib E = .ok (m', R₁')) (hx : ∀ lv ∈ p.lValues, lv.lrx = 0) :
    m (.inr ⟨incident, target, .elastic⟩) = m' (.inr ⟨incident, target, .elastic⟩) ∧
    m (.inr ⟨incident, target, .capture⟩) = m' (.inr ⟨incident, target, .capture⟩) ∧
    (m (.inr ⟨incident, target, .fission⟩)).getD 0 = (m' (.inr ⟨incident, target, .fission⟩)).getD 0 := by
  obtain ⟨n1, ws, t1, g1, -⟩ := C65_cross_sections hR hp hn hE hm
  obtain ⟨n2, ws', t2, g2, -⟩ := C65_cross_sections (multi := multi) hR' rfl hn hE hm'
  obtain rfl := rel_unique t1 t2
  have key : ∀ lv ∈ p.lValues, ∀ w w' : Wave × List Assigned,
      (if lv.resonances = [] then w.2 = [] else lv.l ≤ 4 ∧
        ∃ channel scattering, IsRadii p.ap n1 range.naps (lv.awri * neutronMass) channel scattering ∧
          IsPartialWave (neutronWaveNumber (waveConstant K.hbar neutronMass) lv.awri) channel scattering E
            lv w.1 w.2) →
      (if (noCompetition lv).resonances = [] then w'.2 = [] else lv.l ≤ 4 ∧
        ∃ channel scattering, IsRadii p.ap n1 range.naps (lv.awri * neutronMass) channel scattering ∧
          IsPartialWave (neutronWaveNumber (waveConstant K.hbar neutronMass) lv.awri) channel scattering E
            (noCompetition lv) w'.1 w'.2) →
      captureSum p.spin E w.1 w.2 = captureSum p.spin E w'.1 w'.2 ∧
      fissionSum p.spin E w.1 w.2 = fissionSum p.spin E w'.1 w'.2 ∧
      resonantElastic multi p.spin E w.1 w.2 = resonantElastic multi p.spin E w'.1 w'.2 := by
    intro lv hlv w w' hw hw'
    by_cases hne : lv.resonances = []
    · rw [if_pos hne] at hw
      rw [if_pos (by simpa [noCompetition] using hne)] at hw'
      rw [hw, hw']
      cases multi <;> simp [captureSum, fissionSum, resonantElastic, multiElastic, singleElastic] <;> ring
    · rw [if_neg hne] at hw
      rw [if_neg (by simpa [noCompetition] using hne)] at hw'
      obtain ⟨-, channel, scattering, q1, q2⟩ := hw
      obtain ⟨-, channel', scattering', q3, q4⟩ := hw'
      obtain ⟨k1, k2⟩ := same_closed (hx lv hlv) (fun e => (isRadii_unique (e := e) q1 q3).1)
        (fun e => (isRadii_unique (e := e) q1 q3).2) q2 q4
      obtain ⟨l1, l2, l3, l4⟩ := same_sums k1 k2 p.spin E
      refine ⟨l3, l4, ?_⟩
      unfold resonantElastic
      rw [l1, l2, k1.l, sin_sq_eq_of_exp k1.φ]
  refine ⟨?_, ?_, ?_⟩
  · obtain ⟨before, lv, after, channel, scattering, radius, lmax, φ, a1, a2, a3, a4, a5, a6, a7, a8, -, a9⟩ :=
      g1.elastic
    obtain ⟨before', lv', after', channel', scattering', radius', lmax', φ', b1, b2, b3, b4, b5, b6, b7, b8,
      -, b9⟩ := g2.elastic
    obtain rfl := first_unique a1 a2 a3 b1 b2 b3
    have b4 : IsRadii p.ap n1 range.naps (lv.awri * neutronMass) channel' scattering' := b4
    have er : radius' = radius := by
      have := (isRadii_unique (e := E) a4 b4).2
      rw [a5, b5] at this
      exact (Except.ok.inj this).symm
    subst er
    have el : lmax' = lmax := by
      apply le_antisymm
      · obtain ⟨x, hx1, hx2, rfl⟩ := b7
        obtain ⟨x, hx1', rfl⟩ := List.mem_map.mp hx1
        exact a6 x hx1' (by simpa [noCompetition] using hx2)
      · obtain ⟨x, hx1, hx2, rfl⟩ := a7
        exact b6 (noCompetition x) (List.mem_map_of_mem hx1) (by simpa [noCompetition] using hx2)
    subst el
    rw [a9, b9]
    congr 1
    refine congrArg₂ _ ?_ ?_
    · refine congrArg₂ _ rfl (Finset.sum_congr rfl fun l hl => ?_)
      have hl := Nat.lt_succ_iff.mp (Finset.mem_range.mp hl)
      rw [sin_sq_eq_of_exp ((a8 l hl).trans (b8 l hl).symm)]
    · refine zip_sum_eq g1.waves g2.waves fun lv hlv w w' hw hw' => ?_
      exact congrArg _ (key lv hlv w w' hw hw').2.2
  · have e1 := g1.capture
    have e2 := g2.capture
    rw [e1, e2]
    congr 1
    refine zip_sum_eq g1.waves g2.waves fun lv hlv w w' hw hw' => ?_
    exact congrArg _ (key lv hlv w w' hw hw').1
  · have e1 := g1.fission
    have e2 := g2.fission
    rw [e1, e2]
    refine zip_sum_eq g1.waves g2.waves fun lv hlv w w' hw hw' => ?_
    exact congrArg _ (key lv hlv w w' hw hw').2.1

/-- Both formalisms, with a competitive width that is ignored. -/
example (K : Constants) (lib : CoulombLibrary) (tables : InterpolationLibrary)
    (reactions : ReactionLibrary) (initialBreitWigner : Channel → Verif.BreitWigner.Cache)
    (initial : (g : SpinGroup) → MatrixCache g.channels.length) (multi : Bool) :
    ∃ R R' m m' R₁ R₁', fromENDF K lib tables reactions initialBreitWigner initial 1 1 ("n".toList)
        ("X".toList) (CompetitionExample.endfRange 0 multi) = .ok R ∧
      fromENDF K lib tables reactions initialBreitWigner initial 1 1 ("n".toList) ("X".toList)
        { CompetitionExample.endfRange 0 multi with
          parameters := if multi then .multiLevel (withoutCompetition (CompetitionExample.evaluation 0))
            else .singleLevel (withoutCompetition (CompetitionExample.evaluation 0)) } = .ok R' ∧
      R.call K lib 3 = .ok (m, R₁) ∧ R'.call K lib 3 = .ok (m', R₁') ∧
      m (.inr ⟨"n".toList, "X".toList, .capture⟩) = m' (.inr ⟨"n".toList, "X".toList, .capture⟩) := by
  obtain ⟨R, R', ⟨m, R₁⟩, ⟨m', R₁'⟩, h1, h2, h3, h4⟩ := C71_accepted (K := K) (lib := lib) (tables := tables)
    (reactions := reactions) (initialBreitWigner := initialBreitWigner) (initial := initial)
    (elementaryCharge := 1) (incident := "n".toList) (target := "X".toList)
    (range := CompetitionExample.endfRange 0 multi) (E := 3)
    (multi := multi) ⟨rfl, rfl⟩ rfl .none (CompetitionExample.physical 0) (by norm_num)
    (CompetitionExample.hasRadii 0 3)
  exact ⟨R, R', m, m', R₁, R₁', h1, h2, h3, h4, (C71_flag_partial h1 h2 rfl
    (by unfold CompetitionExample.endfRange; simp [prescribedRadii])
    ⟨by norm_num [CompetitionExample.endfRange], by norm_num [CompetitionExample.endfRange]⟩ h3 h4
    (by simp [CompetitionExample.evaluation])).2.1⟩

end Verif.Endf

namespace Verif.Old

open Spec Endf

variable {c : WaveConstant} {sort : Sorting Resonance.statisticalFactor} {level : Level}
  {bw : Endf.BreitWigner} {channel scattering : ℝ → Outcome ℝ} {S S' : System} {E : ℝ} {x x' : CrossSection}

theorem eased_old (h : Physical bw channel scattering) (hE : E ≠ 0) {A : ℝ} (hA : 0 < A)
    {lv : BreitWignerLValue} (hlv : lv ∈ bw.lValues) {w w' : Wave} {as bs : List Assigned}
    (hw : IsWave (neutronWaveNumber c.value A) channel scattering E lv w as)
    (hw' : IsWave (neutronWaveNumber c.value A) channel scattering E (noCompetition lv) w' bs) :
    List.Forall₂ (Eased w.q) as bs ∧ 0 < w.p ∧ w.p = w'.p ∧ w.s = w'.s ∧
      (lv.lrx ≠ 0 → E + competitiveOffset lv ≠ 0 → ∀ r ∈ lv.resonances, 0 < r.neutronWidth →
        0 < r.competitiveWidth → ∃ a ∈ as, 0 < a.parameters.elastic ∧
          0 < a.parameters.competition * w.q / a.parameters.competitivePenetrability) := by
  have hpos : ∀ e y, channel e = .ok y → 0 < y := by
    intro e y hy
    obtain ⟨z, hz, e1⟩ := h.channel e
    rw [hy] at e1
    rw [Except.ok.inj e1]
    exact hz
  have hcp : ∀ r ∈ lv.resonances, ∀ a, IsAssigned (neutronWaveNumber c.value A) channel lv r a →
      lv.lrx ≠ 0 → 0 < a.parameters.competitivePenetrability := by
    intro r hr a ha hx
    obtain ⟨z, hz, e⟩ := ha.competitive hx
    rw [e]
    exact penetration_pos _ (mul_pos (neutronWaveNumber_pos c hA ((h.energies lv hlv r hr).2 hx))
      (hpos _ _ hz))
  have hload : ∀ r ∈ lv.resonances, ∀ a, IsAssigned (neutronWaveNumber c.value A) channel lv r a →
      0 ≤ a.parameters.competition * w.q / a.parameters.competitivePenetrability := by
    intro r hr a ha
    by_cases hx : lv.lrx = 0
    · rw [ha.competition, if_pos hx]
      simp
    · have h1 := hcp r hr a ha hx
      have h2 := (h.widths lv hlv r hr).2.2.2
      have h3 : 0 ≤ w.q := by
        obtain ⟨z, -, hq⟩ := hw.competitive hx
        rw [hq]
        exact penetration_nonneg _ _
      rw [ha.competition, if_neg hx]
      positivity
  obtain ⟨x1, e1, e2, e3⟩ := hw.own
  obtain ⟨x2, e4, e5, e6⟩ := hw'.own
  rw [e1] at e4
  obtain rfl := Except.ok.inj e4
  refine ⟨?_, ?_, e2.trans e5.symm, e3.trans e6.symm, ?_⟩
  · refine eased_list lv.resonances hw.resonances hw'.resonances fun r hr a b ha hb => ?_
    obtain ⟨y1, f1, f2, f3⟩ := ha.own
    obtain ⟨y2, f4, f5, f6⟩ := hb.own
    have f4 : channel (if lv.lrx = 0 then r.energy else |r.energy|) = .ok y2 := f4
    rw [f1] at f4
    obtain rfl := Except.ok.inj f4
    obtain ⟨w1, w2, w3, w4⟩ := h.widths lv hlv r hr
    refine ⟨ha.J.trans hb.J.symm, ha.energy.trans hb.energy.symm, ha.elastic.trans hb.elastic.symm,
      ha.capture.trans hb.capture.symm, ha.fission.trans hb.fission.symm, f2.trans f5.symm,
      f3.trans f6.symm, ?_, ?_, ⟨?_, ?_, ?_, ?_⟩, hload r hr a ha⟩
    · rw [hb.competition]
      split <;> rfl
    · rw [ha.J]
      exact abs_nonneg _
    · rw [ha.elastic]
      exact w1
    · rw [ha.capture]
      exact w2
    · rw [ha.fission]
      exact w3
    · rw [f2]
      exact penetration_pos _ (mul_pos (neutronWaveNumber_pos c hA (h.energies lv hlv r hr).1)
        (hpos _ _ f1))
  · rw [e2]
    exact penetration_pos _ (mul_pos (neutronWaveNumber_pos c hA hE) (hpos _ _ e1))
  · intro hlrx hqx r hr hn hcw
    obtain ⟨a, ha, har⟩ := forall₂_left hw.resonances hr
    refine ⟨a, ha, by rw [har.elastic]; exact hn, ?_⟩
    have h1 := hcp r hr a har hlrx
    rw [har.competition, if_neg hlrx]
    have hq : 0 < w.q := by
      obtain ⟨z, hz, hq⟩ := hw.competitive hlrx
      rw [hq]
      exact penetration_pos _ (mul_pos (neutronWaveNumber_pos c hA hqx) (hpos _ _ hz))
    positivity

/-- C71: the same for the older code, at every energy except zero and the one at which it has its
threshold. -/
theorem C71_old_reduces (hS : build c sort level bw channel scattering = .ok S)
    (hS' : build c sort level (withoutCompetition bw) channel scattering = .ok S')
    (hx : S.evaluate c level E = .ok x) (hx' : S'.evaluate c level E = .ok x')
    (h : Physical bw channel scattering) (hE : E ≠ 0) :
    x.capture ≤ x'.capture ∧
    ((∃ lv ∈ bw.lValues, lv.lrx ≠ 0 ∧ E + competitiveOffset lv ≠ 0 ∧
      ∃ r ∈ lv.resonances, 0 < r.neutronWidth ∧ 0 < r.competitiveWidth) → x.capture < x'.capture) := by
  have hI : 0 ≤ bw.spin := by
    obtain ⟨n, hn⟩ := h.spin
    rw [hn]
    positivity
  have key : ∀ {bw : Endf.BreitWigner} {S : System} {x : CrossSection}, HalfInt bw.spin →
      build c sort level bw channel scattering = .ok S → S.evaluate c level E = .ok x →
      ∃ first rest, bw.lValues = first :: rest ∧ ∃ ws : List (Wave × List Assigned),
        List.Forall₂ (fun lv w => lv.l ≤ 4 ∧
          IsWave (neutronWaveNumber c.value first.awri) channel scattering E lv w.1 w.2) bw.lValues ws ∧
        x.capture = Real.pi / neutronWaveNumber c.value first.awri E ^ 2
          * (ws.map fun w => Spec.captureSum bw.spin E w.1 w.2).sum := by
    intro bw S x hs hS hx
    cases level with
    | single =>
      obtain ⟨first, rest, h1, ws, h2, -, -, h3, -⟩ := C58_single hS hx
      exact ⟨first, rest, h1, ws, h2, h3⟩
    | multi =>
      obtain ⟨first, rest, h1, ws, h2, -, -, h3, -⟩ := C58_multi hs hS hx
      exact ⟨first, rest, h1, ws, h2, h3⟩
  obtain ⟨first, rest, h1, ws, h2, h3⟩ := key h.spin hS hx
  obtain ⟨first', rest', h1', ws', h2', h3'⟩ := key (bw := withoutCompetition bw) h.spin hS' hx'
  have ef : first' = noCompetition first := by
    have : (withoutCompetition bw).lValues = noCompetition first :: rest.map noCompetition := by
      unfold withoutCompetition
      rw [h1]
      rfl
    rw [this] at h1'
    exact (List.cons.inj h1').1.symm
  subst ef
  have hA : 0 < first.awri := h.awri first (by rw [h1]; exact List.mem_cons_self)
  have hk : 0 < Real.pi / neutronWaveNumber c.value first.awri E ^ 2 := by
    have := neutronWaveNumber_pos c hA hE
    have := Real.pi_pos
    positivity
  have hw : ∀ lv ∈ bw.lValues, ∀ w w' : Wave × List Assigned,
      lv.l ≤ 4 ∧ IsWave (neutronWaveNumber c.value first.awri) channel scattering E lv w.1 w.2 →
      (noCompetition lv).l ≤ 4 ∧ IsWave (neutronWaveNumber c.value (noCompetition first).awri) channel
        scattering E (noCompetition lv) w'.1 w'.2 →
      captureSum bw.spin E w.1 w.2 ≤ captureSum bw.spin E w'.1 w'.2 ∧
      ((lv.lrx ≠ 0 ∧ E + competitiveOffset lv ≠ 0 ∧
        ∃ r ∈ lv.resonances, 0 < r.neutronWidth ∧ 0 < r.competitiveWidth) →
        captureSum bw.spin E w.1 w.2 < captureSum bw.spin E w'.1 w'.2) := by
    intro lv hlv w w' hw hw'
    obtain ⟨k1, k2, k3, k4, k5⟩ := eased_old h hE hA hlv hw.2 hw'.2
    obtain ⟨l1, l2⟩ := captureSum_le k1 hI E k2 k3 k4
    exact ⟨l1, fun ⟨q1, q2, r, q3, q4, q5⟩ => l2 (k5 q1 q2 r q3 q4 q5)⟩
  obtain ⟨z1, z2⟩ := zip_sum (f := fun _ w => captureSum bw.spin E w.1 w.2)
    (g := fun _ w => captureSum bw.spin E w.1 w.2) h2 h2' fun lv hlv w w' g g' => (hw lv hlv w w' g g').1
  rw [zipWith_right h2.length_eq fun w => captureSum bw.spin E w.1 w.2,
    zipWith_right (lvs := bw.lValues.map noCompetition) h2'.length_eq
      fun w => captureSum bw.spin E w.1 w.2] at z1 z2
  rw [h3, h3']
  refine ⟨mul_le_mul_of_nonneg_left z1 hk.le, fun ⟨lv, hlv, g⟩ => ?_⟩
  exact mul_lt_mul_of_pos_left (z2 ⟨lv, hlv, fun w w' q q' => (hw lv hlv w w' q q').2 g⟩) hk

theorem Physical.closed (h : Physical bw channel scattering) :
    Physical (withoutCompetition bw) channel scattering where
  spin := h.spin
  nonempty := by simpa [withoutCompetition] using h.nonempty
  awri := by
    intro lv hlv
    obtain ⟨lv, hlv', rfl⟩ := List.mem_map.mp hlv
    exact h.awri lv hlv'
  l := by
    intro lv hlv
    obtain ⟨lv, hlv', rfl⟩ := List.mem_map.mp hlv
    exact h.l lv hlv'
  channel := h.channel
  scattering := h.scattering
  energies := by
    intro lv hlv r hr
    obtain ⟨lv, hlv', rfl⟩ := List.mem_map.mp hlv
    obtain ⟨r, hr', rfl⟩ := List.mem_map.mp hr
    exact h.energies lv hlv' r hr'
  widths := by
    intro lv hlv r hr
    obtain ⟨lv, hlv', rfl⟩ := List.mem_map.mp hlv
    obtain ⟨r, hr', rfl⟩ := List.mem_map.mp hr
    obtain ⟨h1, h2, h3, -⟩ := h.widths lv hlv' r hr'
    exact ⟨h1, h2, h3, le_refl _⟩

/-- C71 for the older code, the claim. -/
def C71_old_claim : Prop :=
  ∀ (c : WaveConstant) (sort : Sorting Resonance.statisticalFactor) (level : Level)
    (bw : Endf.BreitWigner) (channel scattering : ℝ → Outcome ℝ) (S S' : System) (E : ℝ)
    (x x' : CrossSection), Physical bw channel scattering →
    build c sort level bw channel scattering = .ok S →
    build c sort level (withoutCompetition bw) channel scattering = .ok S' → 0 < E →
    S.evaluate c level E = .ok x → S'.evaluate c level E = .ok x' →
    (∀ lv ∈ bw.lValues, lv.lrx ≠ 0 → competitiveEnergy lv E < 0) → x.capture = x'.capture

theorem old_below : ∀ lv ∈ exampleEvaluation.lValues, lv.lrx ≠ 0 → competitiveEnergy lv 20 < 0 := by
  simp only [exampleEvaluation, List.mem_cons, List.not_mem_nil, or_false]
  rintro lv (rfl | rfl) hx
  · exact absurd rfl hx
  · norm_num [competitiveEnergy]

/-- C71 does not hold for the older code either: for the example, capture is reduced at 20 eV, while the
competitive reaction has its threshold at 1010 eV. -/
theorem C71_old_reduced (c : WaveConstant) (sort : Sorting Resonance.statisticalFactor) (level : Level) :
    ∃ S S' x x', build c sort level exampleEvaluation (constantRadius 0.6) (constantRadius 0.6) = .ok S ∧
      build c sort level (withoutCompetition exampleEvaluation) (constantRadius 0.6) (constantRadius 0.6)
        = .ok S' ∧
      S.evaluate c level 20 = .ok x ∧ S'.evaluate c level 20 = .ok x' ∧ x.capture < x'.capture := by
  obtain ⟨S, h1, h2⟩ := C58_exists (c := c) (sort := sort) (level := level) example_physical
  obtain ⟨S', h3, h4⟩ := C58_exists (c := c) (sort := sort) (level := level) example_physical.closed
  obtain ⟨x, hx⟩ := h2 20 (by norm_num)
  obtain ⟨x', hx'⟩ := h4 20 (by norm_num)
  refine ⟨S, S', x, x', h1, h3, hx, hx', (C71_old_reduces h1 h3 hx hx' example_physical
    (by norm_num)).2 ⟨_, List.mem_cons_of_mem _ List.mem_cons_self, by norm_num, ?_, _,
      List.mem_cons_self, by norm_num, by norm_num⟩⟩
  norm_num [competitiveOffset]

/-- C71 does not hold for the older code either. -/
theorem C71_old_disproved : ¬ C71_old_claim := by
  intro h
  classical
  let sort : Sorting Resonance.statisticalFactor :=
    ⟨fun l => l.mergeSort fun a b => decide (a.statisticalFactor ≤ b.statisticalFactor),
      fun l => List.mergeSort_perm _ _, fun l => by
        refine (List.pairwise_mergeSort ?_ ?_ l).imp ?_
        · intro a b c hab hbc
          simp only [decide_eq_true_eq] at *
          exact hab.trans hbc
        · intro a b
          simp only [Bool.or_eq_true, decide_eq_true_eq]
          exact le_total _ _
        · intro a b hab
          simpa using hab⟩
  obtain ⟨S, S', x, x', h1, h2, h3, h4, h5⟩ := C71_old_reduced ⟨1, one_pos⟩ sort .multi
  exact h5.ne (h _ _ _ _ _ _ _ _ _ _ _ example_physical h1 h2 (by norm_num) h3 h4 old_below)

end Verif.Old
