import Verif.Props.ReichMooreRangeAccepted
import Verif.Props.OldBreitWigner
import Verif.Props.OldApply

/-!
# Property C66: the two generations of the code agree

The older code (namespace `breitWigner`, `reichMoore`) and the newer one (namespace `rmatrix`) are different
programs for the same ranges of an evaluation.
-/

namespace Verif.Endf

open Spec Complex

theorem penetration_eq {ρ : ℝ} (h : 0 ≤ ρ) (l : ℕ) : penetration l ρ = (hardSphere ρ l).1 := by
  unfold penetration
  split
  · rfl
  · rename_i h0
    have : ρ = 0 := le_antisymm (not_lt.mp h0) h
    subst this
    induction l with
    | zero => rfl
    | succ l ih => simp [hardSphere]

theorem neutronWaveNumber_nonneg {c A : ℝ} (hc : 0 < c) (hA : 0 < A) (e : ℝ) :
    0 ≤ neutronWaveNumber c A e := by
  unfold neutronWaveNumber
  positivity

theorem sin_two_eq_of_exp {a b : ℝ} (h : exp (2 * I * a) = exp (2 * I * b)) :
    Real.sin (2 * a) = Real.sin (2 * b) := by
  have key : ∀ x : ℝ, Real.sin (2 * x) = (exp (2 * I * x)).im := by
    intro x
    rw [show (2 * I * (x : ℂ)) = ((2 * x : ℝ) : ℂ) * I by push_cast; ring, exp_ofReal_mul_I_im]
  rw [key, key, h]

/-! ## Breit-Wigner -/

/-- The same resonance without a competitive width. -/
structure Same (a b : Assigned) : Prop where
  J : a.J = b.J
  energy : a.parameters.energy = b.parameters.energy
  elastic : a.parameters.elastic = b.parameters.elastic
  capture : a.parameters.capture = b.parameters.capture
  fission : a.parameters.fission = b.parameters.fission
  penetrability : a.parameters.penetrability = b.parameters.penetrability
  shiftFactor : a.parameters.shiftFactor = b.parameters.shiftFactor
  left : a.parameters.competition = 0
  right : b.parameters.competition = 0

theorem Same.values {a b : Assigned} (h : Same a b) (p q q' s : ℝ) :
    a.parameters.neutronWidth p = b.parameters.neutronWidth p ∧
    a.parameters.totalWidth p q = b.parameters.totalWidth p q' ∧
    a.parameters.position s = b.parameters.position s := by
  unfold Parameters.totalWidth Parameters.position Parameters.neutronWidth
  rw [h.energy, h.elastic, h.capture, h.fission, h.penetrability, h.shiftFactor, h.left, h.right]
  simp

/-- The same partial wave. -/
structure SameWave (w w' : Wave) : Prop where
  l : w.l = w'.l
  p : w.p = w'.p
  s : w.s = w'.s
  φ : exp (2 * I * w.φ) = exp (2 * I * w'.φ)

theorem same_map {β : Type*} {as bs : List Assigned} (h : List.Forall₂ Same as bs) {f g : Assigned → β}
    (hfg : ∀ a b, Same a b → f a = g b) : as.map f = bs.map g := by
  induction h with
  | nil => rfl
  | cons h1 _ ih => rw [List.map_cons, List.map_cons, hfg _ _ h1, ih]

theorem same_filter {β : Type*} {as bs : List Assigned} (h : List.Forall₂ Same as bs) {f g : Assigned → β}
    (hfg : ∀ a b, Same a b → f a = g b) (J : ℚ) :
    (as.filter fun a => a.J = J).map f = (bs.filter fun a => a.J = J).map g := by
  induction h with
  | nil => rfl
  | @cons a b _ _ h1 _ ih =>
    by_cases hJ : a.J = J
    · rw [List.filter_cons_of_pos (by simpa using hJ),
        List.filter_cons_of_pos (by simpa using h1.J ▸ hJ), List.map_cons, List.map_cons, hfg _ _ h1, ih]
    · rw [List.filter_cons_of_neg (by simpa using hJ),
        List.filter_cons_of_neg (by simpa using h1.J ▸ hJ), ih]

theorem same_terms {w w' : Wave} (hw : SameWave w w') {a b : Assigned} (h : Same a b) (E : ℝ) :
    a.parameters.elasticTerm E w.p w.q w.s w.φ = b.parameters.elasticTerm E w'.p w'.q w'.s w'.φ ∧
    a.parameters.captureTerm E w.p w.q w.s = b.parameters.captureTerm E w'.p w'.q w'.s ∧
    a.parameters.fissionTerm E w.p w.q w.s = b.parameters.fissionTerm E w'.p w'.q w'.s ∧
    a.level w = b.level w' := by
  obtain ⟨h1, h2, h3⟩ := h.values w'.p w.q w'.q w'.s
  unfold Parameters.elasticTerm Parameters.captureTerm Parameters.fissionTerm Parameters.denominator
    Assigned.level
  rw [hw.p, hw.s, h1, h2, h3, sin_sq_eq_of_exp hw.φ, sin_two_eq_of_exp hw.φ, h.capture, h.fission]
  exact ⟨rfl, rfl, rfl, rfl⟩

theorem same_sums {w w' : Wave} (hw : SameWave w w') {as bs : List Assigned} (h : List.Forall₂ Same as bs)
    (spin : ℚ) (E : ℝ) :
    singleElastic spin E w as = singleElastic spin E w' bs ∧
    multiElastic spin E w as = multiElastic spin E w' bs ∧
    captureSum spin E w as = captureSum spin E w' bs ∧ fissionSum spin E w as = fissionSum spin E w' bs := by
  have hJ : as.map Assigned.J = bs.map Assigned.J := same_map h fun a b h => h.J
  refine ⟨?_, ?_, ?_, ?_⟩
  · unfold singleElastic
    rw [hw.l, sin_sq_eq_of_exp hw.φ, same_map h fun a b h => by rw [h.J, (same_terms hw h E).1]]
  · unfold multiElastic
    rw [hJ, hw.l, sin_sq_eq_of_exp hw.φ]
    congr 1
    refine Finset.sum_congr rfl fun J _ => ?_
    rw [same_filter h (fun a b h => (same_terms hw h E).2.2.2) J]
    unfold levelCollision
    rw [exp_neg, exp_neg, hw.φ]
  · unfold captureSum
    rw [same_map h fun a b h => by rw [h.J, (same_terms hw h E).2.1]]
  · unfold fissionSum
    rw [same_map h fun a b h => by rw [h.J, (same_terms hw h E).2.2.1]]

section

variable {k : ℝ → ℝ} {channel channel' scattering scattering' : ℝ → Outcome ℝ} {E : ℝ}

theorem same_resonance {lv : BreitWignerLValue} {r : BreitWignerResonance} {a b : Assigned}
    (hx : lv.lrx = 0) (hk : ∀ e, 0 ≤ k e) (hc : ∀ e, channel e = channel' e)
    (hpos : ∀ e x, channel' e = .ok x → 0 ≤ x) (h : IsResonance k channel lv r a)
    (h' : IsAssigned k channel' lv r b) : Same a b := by
  obtain ⟨x, h1, h2, h3⟩ := h.own
  obtain ⟨y, h4, h5, h6⟩ := h'.own
  rw [if_pos hx] at h4
  rw [hc, h4] at h1
  obtain rfl := Except.ok.inj h1
  rw [penetration_eq (mul_nonneg (hk _) (hpos _ _ h4))] at h5
  exact ⟨h.J.trans h'.J.symm, h.energy.trans h'.energy.symm, h.elastic.trans h'.elastic.symm,
    h.capture.trans h'.capture.symm, h.fission.trans h'.fission.symm, h2.trans h5.symm, h3.trans h6.symm,
    h.competition.trans (if_pos hx), h'.competition.trans (if_pos hx)⟩

theorem same_wave {lv : BreitWignerLValue} {w w' : Wave} {as bs : List Assigned}
    (hx : lv.lrx = 0) (hk : ∀ e, 0 ≤ k e) (hc : ∀ e, channel e = channel' e)
    (hs : ∀ e, scattering e = scattering' e)
    (hpos : ∀ e x, channel' e = .ok x → 0 ≤ x) (h : IsPartialWave k channel scattering E lv w as)
    (h' : IsWave k channel' scattering' E lv w' bs) : SameWave w w' ∧ List.Forall₂ Same as bs := by
  obtain ⟨x, h1, h2, h3⟩ := h.own
  obtain ⟨y, h4, h5, h6⟩ := h'.own
  rw [hc, h4] at h1
  obtain rfl := Except.ok.inj h1
  rw [penetration_eq (mul_nonneg (hk _) (hpos _ _ h4))] at h5
  obtain ⟨x, h7, h8⟩ := h.phase
  obtain ⟨y, h9, h10⟩ := h'.phase
  rw [hs, h9] at h7
  obtain rfl := Except.ok.inj h7
  refine ⟨⟨h.l.trans h'.l.symm, h2.trans h5.symm, h3.trans h6.symm, h8.trans h10.symm⟩, ?_⟩
  have k1 := h.resonances
  have k2 := h'.resonances
  clear h h'
  generalize lv.resonances = rs at k1 k2
  induction k1 generalizing bs with
  | nil => cases k2; exact .nil
  | cons g1 _ ih =>
    cases k2 with
    | cons g2 g3 => exact .cons (same_resonance hx hk hc hpos g1 g2) (ih g3)

end

variable {K : Constants} {lib : CoulombLibrary} {tables : InterpolationLibrary}
  {initialBreitWigner : Channel → Verif.BreitWigner.Cache} {neutronMass E A : ℝ} {incident target : Str}
  {reactions : ReactionLibrary} {initial : (g : SpinGroup) → MatrixCache g.channels.length}
  {elementaryCharge : ℝ} {range : Range} {R R' : Reconstructor} {m : ReactionMap}
  {c : Old.WaveConstant} {x : Old.CrossSection} {nro : Option (ℝ → Outcome ℝ)}

theorem forall₂_sum {α β : Type*} {Q : α → β → Prop} {as : List α} {bs : List β} (h : List.Forall₂ Q as bs)
    {f : α → ℝ} {g : β → ℝ} (hfg : ∀ a b, Q a b → f a = g b) : (as.map f).sum = (bs.map g).sum := by
  induction h with
  | nil => rfl
  | cons h1 _ ih => rw [List.map_cons, List.map_cons, List.sum_cons, List.sum_cons, ih, hfg _ _ h1]

/-- The older code makes the same table of radii. -/
theorem tableRadius_of {radius : ScatteringRadius} {f : ℝ → Outcome ℝ} (h : IsRadiusTable tables radius f) :
    Old.tableRadius tables radius = .ok f := by
  obtain ⟨fs, h1, h2⟩ := h
  have : (radius.regions.zip radius.interpolants).mapM (fun p => Old.constructTable tables p.1 p.2)
      = .ok fs := by
    refine mapM_ok.mpr (h1.imp ?_)
    rintro region g ⟨law, hl, hg⟩
    unfold Old.constructTable
    unfold Law.ofCode at hl
    split at hl
    all_goals first
      | (cases hl; rename_i e; rw [e]; simpa [Law.table] using hg)
      | cases hl
  unfold Old.tableRadius
  rw [this]
  exact h2

/-- A range is given to both generations: what they are told of the radii agrees. -/
structure SameRange (tables : InterpolationLibrary) (neutronMass : ℝ) (flag : ℤ) (range : Range) : Prop where
  /-- The older code has its own neutron mass. -/
  mass : neutronMass = 1.00866491582
  /-- The older code looks at the flag NRO. -/
  flag : flag ≠ 0 ↔ range.scatteringRadius.isSome
  /-- NRO and NAPS are one of the combinations of the format. -/
  prescribed : prescribedRadii range.scatteringRadius.isSome range.naps ≠ none
  /-- Radii in the table are not negative. -/
  table : ∀ radius f, range.scatteringRadius = some radius → IsRadiusTable tables radius f →
    ∀ e a, f e = .ok a → 0 ≤ a

theorem SameRange.offered {flag : ℤ} (h : SameRange tables neutronMass flag range)
    (hr : Option.Rel (IsRadiusTable tables) range.scatteringRadius nro) :
    Old.offeredTable tables flag range = nro ∧ decide (flag ≠ 0) = nro.isSome := by
  have hf := h.flag
  unfold Old.offeredTable
  generalize range.scatteringRadius = s at hr hf
  cases hr with
  | none =>
    have : flag = 0 := by simpa using hf
    simp [this]
  | some hf' =>
    have h0 : flag ≠ 0 := by simpa using hf
    rw [if_neg h0]
    dsimp only
    rw [tableRadius_of hf']
    exact ⟨rfl, by simpa using h0⟩

theorem SameRange.nonneg {flag : ℤ} (h : SameRange tables neutronMass flag range)
    (hr : Option.Rel (IsRadiusTable tables) range.scatteringRadius nro) {ap mass e a : ℝ} (hap : 0 ≤ ap)
    {source : RadiusSource} (hs : IsRadius ap nro mass e (.ok a) source) : 0 ≤ a := by
  cases source with
  | mass =>
    obtain ⟨root, h1, -, h2⟩ := hs
    rw [Except.ok.inj h2]
    positivity
  | constant =>
    rw [Except.ok.inj hs]
    exact hap
  | table =>
    obtain ⟨f, rfl, h2⟩ := hs
    have ht := h.table
    generalize range.scatteringRadius = s at hr ht
    cases hr with
    | some hf => exact ht _ _ rfl hf _ _ h2.symm

theorem prescribed_of (hr : Option.Rel (IsRadiusTable tables) range.scatteringRadius nro) :
    range.scatteringRadius.isSome = nro.isSome := by
  generalize range.scatteringRadius = s at hr
  cases hr <;> rfl

theorem same_all {ap : ℝ} {naps : ℤ} {c' : ℝ} (hc0 : 0 < c') (hA0 : 0 < A)
    {channel scattering : ℝ → Outcome ℝ}
    {lvs : List BreitWignerLValue} {ws ws' : List (Wave × List Assigned)}
    (hA : ∀ lv ∈ lvs, lv.awri = A) (hx : ∀ lv ∈ lvs, lv.lrx = 0) (hr : ∀ lv ∈ lvs, lv.resonances ≠ [])
    (hrad : IsRadii ap nro naps (A * neutronMass) channel scattering)
    (hpos : ∀ e x, channel e = .ok x → 0 ≤ x)
    (h : List.Forall₂ (fun lv (w : Wave × List Assigned) => if lv.resonances = [] then w.2 = [] else
      lv.l ≤ 4 ∧ ∃ channel scattering, IsRadii ap nro naps (lv.awri * neutronMass) channel scattering ∧
        IsPartialWave (neutronWaveNumber c' lv.awri) channel scattering E lv w.1 w.2) lvs ws)
    (h' : List.Forall₂ (fun lv (w : Wave × List Assigned) => lv.l ≤ 4 ∧
      IsWave (neutronWaveNumber c' A) channel scattering E lv w.1 w.2) lvs ws') :
    List.Forall₂ (fun w w' => SameWave w.1 w'.1 ∧ List.Forall₂ Same w.2 w'.2) ws ws' := by
  induction h generalizing ws' with
  | nil => cases h'; exact .nil
  | cons h1 _ ih =>
    cases h' with
    | cons h1' h2' =>
      refine .cons ?_ (ih (fun lv hlv => hA lv (List.mem_cons_of_mem _ hlv))
        (fun lv hlv => hx lv (List.mem_cons_of_mem _ hlv))
        (fun lv hlv => hr lv (List.mem_cons_of_mem _ hlv)) h2')
      rw [if_neg (hr _ List.mem_cons_self), hA _ List.mem_cons_self] at h1
      obtain ⟨-, channel', scattering', r1, r2⟩ := h1
      exact same_wave (hx _ List.mem_cons_self) (neutronWaveNumber_nonneg hc0 hA0)
        (fun e => (isRadii_unique (e := e) r1 hrad).1)
        (fun e => (isRadii_unique (e := e) r1 hrad).2) hpos r2 h1'.2

/-- C66: the older and the newer code give the same cross sections for a Breit-Wigner range, if both have
the same constants and there is no competitive width. The elastic multi-level cross sections differ by no
more than the rounding of tabulated decimals. -/
theorem C66_breit_wigner {p : BreitWigner} {level : Old.Level} {flag : ℤ}
    {sort : Old.Sorting Old.Resonance.statisticalFactor} {S : Old.System}
    (hp : range.parameters = if level = .multi then .multiLevel p else .singleLevel p)
    (hR : fromENDF K lib tables reactions initialBreitWigner initial neutronMass elementaryCharge incident
      target range = .ok R)
    (hE : range.lower ≤ E ∧ E ≤ range.upper) (hm : R.call K lib E = .ok (m, R'))
    (hS : Old.apply c sort tables level flag range = .ok S) (hv : S.evaluate c level E = .ok x)
    (hc : c.value = waveConstant K.hbar neutronMass) (hs : SameRange tables neutronMass flag range)
    (hap : 0 ≤ p.ap) (hI : HalfInt p.spin) (hA0 : 0 < A) (hA : ∀ lv ∈ p.lValues, lv.awri = A)
    (hl : p.lValues.map BreitWignerLValue.l = List.range p.lValues.length)
    (hr : ∀ lv ∈ p.lValues, lv.resonances ≠ []) (hx : ∀ lv ∈ p.lValues, lv.lrx = 0) :
    (∃ v, m (.inr ⟨incident, target, .elastic⟩) = some v ∧ |x.elastic - v|
      ≤ if level = .multi then
        Real.pi / neutronWaveNumber c.value A E ^ 2 * (4 * p.lValues.length / 10 ^ 15) else 0) ∧
    m (.inr ⟨incident, target, .capture⟩) = some x.capture ∧
    (m (.inr ⟨incident, target, .fission⟩)).getD 0 = x.fission := by
  have hbw : Old.selectBreitWigner level range.parameters = .ok p := by
    rw [hp]
    cases level <;> rfl
  obtain ⟨nro, ws, w1, w2, -⟩ := C65_cross_sections (multi := decide (level = .multi)) hR (by simpa using hp)
    hs.prescribed hE hm
  obtain ⟨g1, g2, g3⟩ := C65_regular w2 hA hl hr
  obtain ⟨o1, o2⟩ := hs.offered w1
  obtain ⟨channel, scattering, hrad, hpos, hS⟩ : ∃ channel scattering,
      IsRadii p.ap nro range.naps (A * neutronMass) channel scattering ∧
      (∀ e a, channel e = .ok a → 0 ≤ a) ∧ Old.build c sort level p channel scattering = .ok S := by
    cases hlv : p.lValues with
    | nil =>
      unfold Old.apply at hS
      rw [hbw] at hS
      simp only [bind, Except.bind, hlv] at hS
      cases hS
    | cons lv rest =>
      have hAlv : lv.awri = A := hA lv (by rw [hlv]; exact List.mem_cons_self)
      have hpres := hs.prescribed
      rw [prescribed_of w1] at hpres
      obtain ⟨⟨first, second⟩, hpres⟩ := Option.ne_none_iff_exists'.mp hpres
      obtain ⟨channel, scattering, k1, k2, k3⟩ := Old.C31_old_breit_wigner_partial (c := c) (sort := sort)
        (tables := tables) (nro := flag) (level := level) (by rw [hp]; cases level <;> rfl) hlv (hAlv ▸ hA0.le) (table := nro.getD fun _ => .error .throws)
        (by
          intro h0
          rw [o1]
          have : nro.isSome := by rw [← o2]; simpa using h0
          obtain ⟨f, rfl⟩ := Option.isSome_iff_exists.mp this
          rfl) (by rw [o2]; exact hpres)
      rw [o1, hAlv, ← hs.mass, mul_comm] at k1 k2
      refine ⟨channel, scattering, ⟨first, second, hpres, fun e => ⟨k1 e, k2 e⟩⟩, fun e a ha => ?_,
        k3 ▸ hS⟩
      exact hs.nonneg w1 hap (ha ▸ k1 e)
  rw [hc]
  have hc0 : 0 < waveConstant K.hbar neutronMass := hc ▸ c.pos
  cases level with
  | single =>
    obtain ⟨first, rest, f1, ws', f2, -, f4, f5, f6⟩ := Old.C58_single hS hv
    rw [hA first (by rw [f1]; exact List.mem_cons_self), hc] at f2 f4 f5 f6
    have hsame := same_all hc0 hA0 hA hx hr hrad hpos w2.waves f2
    refine ⟨⟨_, g1, ?_⟩, ?_, ?_⟩
    · rw [f4, if_neg (by decide), abs_nonpos_iff, sub_eq_zero]
      congr 1
      exact (forall₂_sum hsame fun w w' h => by simpa using (same_sums h.1 h.2 p.spin E).1).symm
    · rw [g2, f5, forall₂_sum hsame fun w w' h => (same_sums h.1 h.2 p.spin E).2.2.1]
    · rw [g3, f6, forall₂_sum hsame fun w w' h => (same_sums h.1 h.2 p.spin E).2.2.2]
  | multi =>
    obtain ⟨first, rest, f1, ws', f2, -, f4, f5, f6⟩ := Old.C58_multi hI hS hv
    rw [hA first (by rw [f1]; exact List.mem_cons_self), hc] at f2 f4 f5 f6
    have hsame := same_all hc0 hA0 hA hx hr hrad hpos w2.waves f2
    refine ⟨⟨_, g1, ?_⟩, ?_, ?_⟩
    · rw [if_pos rfl]
      rw [forall₂_sum hsame fun w w' h => by simpa using (same_sums h.1 h.2 p.spin E).2.1, f2.length_eq]
      exact f4
    · rw [g2, f5, forall₂_sum hsame fun w w' h => (same_sums h.1 h.2 p.spin E).2.2.1]
    · rw [g3, f6, forall₂_sum hsame fun w w' h => (same_sums h.1 h.2 p.spin E).2.2.2]

/-! ## Reich-Moore -/

theorem radius_even {ap mass : ℝ} {source : RadiusSource} {f : ℝ → Outcome ℝ}
    (h : ∀ e, IsRadius ap none mass e (f e) source) (e : ℝ) : f |e| = f e := by
  cases source with
  | mass =>
    obtain ⟨r, r1, r2, r3⟩ := h |e|
    obtain ⟨s, s1, s2, s3⟩ := h e
    rw [r3, s3, (pow_left_inj₀ r1 s1 (by norm_num)).mp (r2.trans s2.symm)]
  | constant => exact (h |e|).trans (h e).symm
  | table =>
    obtain ⟨f, h1, -⟩ := h e
    cases h1

theorem lRadius_isRadius {mass e : ℝ} {source : RadiusSource} {use : Bool} {f : ℝ → Outcome ℝ}
    {p : ReichMoore} {lv : ReichMooreLValue} (hu : use ↔ source = .constant)
    (h : IsRadius p.ap nro mass e (f e) source) :
    IsRadius (lengthOf p lv) nro mass e (lRadius use lv f e) source := by
  unfold lRadius lengthOf
  by_cases ha : lv.apl = 0
  · rw [if_neg (by simp [ha]), if_neg (by simp [ha])]
    exact h
  · rw [if_pos ha]
    by_cases hs : source = .constant
    · rw [if_pos ⟨hu.mpr hs, ha⟩, hs]
      rfl
    · rw [if_neg (fun h => hs (hu.mp h.1))]
      cases source with
      | mass => exact h
      | constant => exact absurd rfl hs
      | table => exact h

theorem level_same {k : ℝ → ℝ} {channel channel' : ℝ → Outcome ℝ} {l : ℕ} {r : ReichMooreResonance}
    {a a' : Coupled} (hk : ∀ e, 0 ≤ k e) (hc : channel r.energy = channel' |r.energy|)
    (hpos : ∀ e x, channel' e = .ok x → 0 ≤ x) (h : IsLevel k channel l r a)
    (h' : IsCoupled k channel' l r a') : a = a' := by
  obtain ⟨radius, r1, r2⟩ := h.own
  obtain ⟨radius', r3, r4⟩ := h'.own
  rw [hc, r3] at r1
  obtain rfl := Except.ok.inj r1
  rw [penetration_eq (mul_nonneg (hk _) (hpos _ _ r3))] at r4
  have h1 := h.J.trans h'.J.symm
  have h2 := h.energy.trans h'.energy.symm
  have h3 := h.elastic.trans h'.elastic.symm
  have h4 := h.capture.trans h'.capture.symm
  have h5 := h.fissionA.trans h'.fissionA.symm
  have h6 := h.fissionB.trans h'.fissionB.symm
  have h7 := r2.trans r4.symm
  cases a
  cases a'
  simp only at h1 h2 h3 h4 h5 h6 h7
  rw [h1, h2, h3, h4, h5, h6, h7]

theorem levels_same {k : ℝ → ℝ} {channel channel' : ℝ → Outcome ℝ} {l : ℕ}
    {rs : List ReichMooreResonance} {as as' : List Coupled} (hk : ∀ e, 0 ≤ k e)
    (hc : ∀ r ∈ rs, channel r.energy = channel' |r.energy|)
    (hpos : ∀ e x, channel' e = .ok x → 0 ≤ x)
    (h : List.Forall₂ (IsLevel k channel l) rs as) (h' : List.Forall₂ (IsCoupled k channel' l) rs as') :
    as = as' := by
  induction h generalizing as' with
  | nil => cases h'; rfl
  | cons h1 _ ih =>
    cases h' with
    | cons h1' h2' =>
      rw [level_same hk (hc _ List.mem_cons_self) hpos h1 h1',
        ih (fun r hr => hc r (List.mem_cons_of_mem _ hr)) h2']

/-- The same partial wave with the same resonances. -/
structure SameCoupled (w w' : CoupledWave × List Coupled) : Prop where
  resonances : w.2 = w'.2
  l : w.1.l = w'.1.l
  p : w.1.p = w'.1.p
  φ : exp (2 * I * w.1.φ) = exp (2 * I * w'.1.φ)

theorem SameCoupled.sums {w w' : CoupledWave × List Coupled} (h : SameCoupled w w') (spin : ℚ) (E : ℝ) :
    coupledElastic spin E w.1 w.2 = coupledElastic spin E w'.1 w'.2 ∧
    coupledCapture spin E w.1 w.2 = coupledCapture spin E w'.1 w'.2 ∧
    coupledFission spin E w.1 w.2 = coupledFission spin E w'.1 w'.2 := by
  unfold coupledElastic coupledCapture coupledFission
  rw [h.resonances, collision_unique h.p h.φ, h.l, sin_sq_eq_of_exp h.φ]
  exact ⟨rfl, rfl, rfl⟩

theorem coupled_same {k : ℝ → ℝ} {channel scattering channel' scattering' : ℝ → Outcome ℝ}
    {lv : ReichMooreLValue} {w w' : CoupledWave × List Coupled} (hk : ∀ e, 0 ≤ k e)
    (hc : ∀ e, channel e = channel' e) (hs : ∀ e, scattering e = scattering' e)
    (ha : ∀ r ∈ lv.resonances, channel' |r.energy| = channel' r.energy)
    (hpos : ∀ e x, channel' e = .ok x → 0 ≤ x) (h : IsLevelWave k channel scattering E lv w.1 w.2)
    (h' : IsCoupledWave k channel' scattering' E lv w'.1 w'.2) : SameCoupled w w' := by
  obtain ⟨x, h1, h2⟩ := h.own
  obtain ⟨y, h4, h5⟩ := h'.own
  rw [hc, h4] at h1
  obtain rfl := Except.ok.inj h1
  rw [penetration_eq (mul_nonneg (hk _) (hpos _ _ h4))] at h5
  obtain ⟨x, h7, h8⟩ := h.phase
  obtain ⟨y, h9, h10⟩ := h'.phase
  rw [hs, h9] at h7
  obtain rfl := Except.ok.inj h7
  exact ⟨levels_same hk (fun r hr => (hc _).trans (ha r hr).symm) hpos h.resonances h'.resonances,
    h.l.trans h'.l.symm, h2.trans h5.symm, h8.trans h10.symm⟩

theorem coupled_all {p : ReichMoore} {naps : ℤ} {c' : ℝ} (hc0 : 0 < c') (hA0 : 0 < A)
    {tag : Old.ReichMoore.Tag} {channel scattering : ℝ → Outcome ℝ}
    {lvs : List ReichMooreLValue} {ws ws' : List (CoupledWave × List Coupled)}
    (hr : ∀ lv ∈ lvs, lv.resonances ≠ [])
    (hrad : ∀ lv ∈ lvs, IsRadii (lengthOf p lv) nro naps (A * neutronMass) (lRadius tag.channel? lv channel)
      (lRadius tag.scattering? lv scattering))
    (ha : ∀ lv ∈ lvs, ∀ r ∈ lv.resonances,
      lRadius tag.channel? lv channel |r.energy| = lRadius tag.channel? lv channel r.energy)
    (hpos : ∀ lv ∈ lvs, ∀ e x, lRadius tag.channel? lv channel e = .ok x → 0 ≤ x)
    (h : List.Forall₂ (fun lv (w : CoupledWave × List Coupled) => if lv.resonances = [] then w.2 = [] else
      lv.l ≤ 4 ∧ lv.l < p.nlsc ∧
      ∃ channel scattering, IsRadii (lengthOf p lv) nro naps (A * neutronMass) channel scattering ∧
        IsLevelWave (neutronWaveNumber c' A) channel scattering E lv w.1 w.2) lvs ws)
    (h' : List.Forall₂ (fun lv (w : CoupledWave × List Coupled) => lv.l ≤ 4 ∧
      IsCoupledWave (neutronWaveNumber c' A) (lRadius tag.channel? lv channel)
        (lRadius tag.scattering? lv scattering) E lv w.1 w.2) lvs ws') :
    List.Forall₂ SameCoupled ws ws' := by
  induction h generalizing ws' with
  | nil => cases h'; exact .nil
  | cons h1 _ ih =>
    cases h' with
    | cons h1' h2' =>
      refine .cons ?_ (ih (fun lv hlv => hr lv (List.mem_cons_of_mem _ hlv))
        (fun lv hlv => hrad lv (List.mem_cons_of_mem _ hlv))
        (fun lv hlv => ha lv (List.mem_cons_of_mem _ hlv))
        (fun lv hlv => hpos lv (List.mem_cons_of_mem _ hlv)) h2')
      rw [if_neg (hr _ List.mem_cons_self)] at h1
      obtain ⟨-, -, channel', scattering', r1, r2⟩ := h1
      have hrad := hrad _ List.mem_cons_self
      exact coupled_same (neutronWaveNumber_nonneg hc0 hA0)
        (fun e => (isRadii_unique (e := e) r1 hrad).1)
        (fun e => (isRadii_unique (e := e) r1 hrad).2) (ha _ List.mem_cons_self)
        (hpos _ List.mem_cons_self) r2 h1'.2

/-- C66: the older and the newer code give the same cross sections for a Reich-Moore range, if both have the
same constants, all l below NLSC have resonances, and no l value has both a radius of its own and channels
without resonances. -/
theorem C66_reich_moore {p : ReichMoore} {flag : ℤ}
    {sort : Old.Sorting Old.ReichMoore.Resonance.flaggedStatisticalFactor} {S : Old.ReichMoore.System}
    (hp : range.parameters = .reichMoore p)
    (hR : fromENDF K lib tables reactions initialBreitWigner initial neutronMass elementaryCharge incident
      target range = .ok R)
    (hE : range.lower ≤ E ∧ E ≤ range.upper) (hm : R.call K lib E = .ok (m, R'))
    (hS : Old.ReichMoore.apply c sort tables flag range = .ok S) (hv : S.evaluate c E = .ok x)
    (hc : c.value = waveConstant K.hbar neutronMass) (hs : SameRange tables neutronMass flag range)
    (hap : 0 ≤ p.ap ∧ ∀ lv ∈ p.lValues, 0 ≤ lv.apl) (hI : HalfInt p.spin) (hA0 : 0 < A)
    (hA : ∀ lv ∈ p.lValues, lv.awri = A)
    (hw : ∀ lv ∈ p.lValues, ∀ r ∈ lv.resonances, 0 ≤ r.neutronWidth ∧ 0 ≤ r.gammaWidth)
    (hd : DistinctEnergies p) (h0 : 0 ≤ E)
    (he : range.scatteringRadius = none ∨ ∀ lv ∈ p.lValues, ∀ r ∈ lv.resonances, 0 ≤ r.energy)
    (hl : (p.lValues.map ReichMooreLValue.l).Nodup)
    (hall : ∀ l < p.nlsc, l ∈ p.lValues.map ReichMooreLValue.l)
    (hr : ∀ lv ∈ p.lValues, lv.resonances ≠ [])
    (hapl : ∀ lv ∈ p.lValues, lv.apl = 0 ∨ lv.apl = p.ap ∨ missingFactor p lv.l = 0) :
    m (.inl (.elastic (pairID incident target))) = some x.elastic ∧
    m (.inl (.transition (pairID incident target) "capture".toList)) = some x.capture ∧
    (m (.inl (.transition (pairID incident target) "fission".toList))).getD 0 = x.fission := by
  have hrm : Old.ReichMoore.select range.parameters = .ok p := by
    rw [hp]
    rfl
  obtain ⟨nro, ws, w1, w2, -⟩ := C69_cross_sections hR hp hs.prescribed hI hA hw hd h0 hE hm
  obtain ⟨φ, -, g1⟩ := C69_elastic w2 hl hr hapl
  have hempty : (Finset.range p.nlsc).filter (· ∉ p.lValues.map ReichMooreLValue.l) = ∅ := by
    rw [Finset.filter_eq_empty_iff]
    intro l hl' h
    exact h (hall l (Finset.mem_range.mp hl'))
  rw [hempty, Finset.sum_empty, add_zero] at g1
  have g2 := w2.capture
  have g3 := w2.fission
  obtain ⟨o1, o2⟩ := hs.offered w1
  obtain ⟨tag, channel, scattering, hrad, ha, hpos, hS⟩ : ∃ (tag : Old.ReichMoore.Tag) (channel : _)
      (scattering : _),
      (∀ lv ∈ p.lValues, IsRadii (lengthOf p lv) nro range.naps (A * neutronMass)
        (lRadius tag.channel? lv channel) (lRadius tag.scattering? lv scattering)) ∧
      (∀ lv ∈ p.lValues, ∀ r ∈ lv.resonances,
        lRadius tag.channel? lv channel |r.energy| = lRadius tag.channel? lv channel r.energy) ∧
      (∀ lv ∈ p.lValues, ∀ e a, lRadius tag.channel? lv channel e = .ok a → 0 ≤ a) ∧
      Old.ReichMoore.build c sort p tag channel scattering tag.channel? = .ok S := by
    cases hlv : p.lValues with
    | nil =>
      unfold Old.ReichMoore.apply at hS
      rw [hrm] at hS
      simp only [bind, Except.bind, hlv] at hS
      cases hS
    | cons lv rest =>
      rw [← hlv]
      have hAlv : lv.awri = A := hA lv (by rw [hlv]; exact List.mem_cons_self)
      have hpres := hs.prescribed
      rw [prescribed_of w1] at hpres
      obtain ⟨⟨first, second⟩, hpres⟩ := Option.ne_none_iff_exists'.mp hpres
      obtain ⟨tag, t1, t2, channel, scattering, k1, k2, k3⟩ := Old.C31_old_reich_moore_partial (c := c)
        (sort := sort) (tables := tables) (nro := flag) hp hlv (hAlv ▸ hA0.le)
        (table := nro.getD fun _ => .error .throws)
        (by
          intro h0
          rw [o1]
          have : nro.isSome := by rw [← o2]; simpa using h0
          obtain ⟨f, rfl⟩ := Option.isSome_iff_exists.mp this
          rfl) (by rw [o2]; exact hpres)
      rw [o1, hAlv, ← hs.mass, mul_comm] at k1 k2
      refine ⟨tag, channel, scattering, fun lv hlv => ⟨first, second, hpres, fun e =>
        ⟨lRadius_isRadius t1 (k1 e), lRadius_isRadius t2 (k2 e)⟩⟩, fun lv hlv r hr => ?_,
        fun lv hlv e a ha => ?_, k3.symm.trans hS⟩
      · rcases he with he | he
        · rw [he] at w1
          cases w1
          exact radius_even (fun e => lRadius_isRadius (lv := lv) t1 (k1 e)) r.energy
        · rw [abs_of_nonneg (he lv hlv r hr)]
      · refine hs.nonneg w1 (ap := lengthOf p lv) ?_ (ha ▸ lRadius_isRadius t1 (k1 e))
        unfold lengthOf
        split
        · exact hap.2 lv hlv
        · exact hap.1
  have hc0 : 0 < waveConstant K.hbar neutronMass := hc ▸ c.pos
  obtain ⟨first, rest, f1, ws', f2, -, f4, f5, f6⟩ := Old.ReichMoore.C59
    (by
      obtain ⟨n, hn⟩ := hI
      rw [hn]
      positivity) (fun lv hlv r hr => (hw lv hlv r hr).2) hS hv
  rw [hA first (by rw [f1]; exact List.mem_cons_self), hc] at f2 f4 f5 f6
  have hsame := coupled_all hc0 hA0 hr hrad ha hpos w2.waves f2
  dsimp only at g1 g2 g3
  refine ⟨?_, ?_, ?_⟩
  · rw [g1, f4, forall₂_sum hsame fun w w' h => (h.sums p.spin E).1]
  · rw [g2, f5, forall₂_sum hsame fun w w' h => (h.sums p.spin E).2.1]
  · rw [g3, f6, forall₂_sum hsame fun w w' h => (h.sums p.spin E).2.2]

/-! ## Examples -/

namespace GenerationsExample

theorem sameRange {range : Range} (h : range.scatteringRadius = none) (hn : range.naps = 1)
    (tables : InterpolationLibrary) : SameRange tables 1.00866491582 0 range :=
  ⟨rfl, by simp [h], by rw [h, hn]; simp [prescribedRadii], by simp [h]⟩

/-- The constant of the older code. -/
noncomputable def constant (K : Constants) : Old.WaveConstant :=
  ⟨waveConstant K.hbar 1.00866491582, by
    have := K.hbar_pos
    unfold waveConstant
    positivity⟩

theorem breitWigner : PhysicalBreitWigner 1.00866491582 none 1 BreitWignerExample.evaluation :=
  let h := BreitWignerExample.physical
  ⟨by norm_num, h.spin, h.some, h.distinct, h.awri, h.l, h.spins, h.signs, h.widths, fun lv hlv => by
    obtain ⟨channel, scattering, h1, h2⟩ := h.radii lv hlv
    refine ⟨fun _ => .ok (1 / 2), fun _ => .ok (1 / 2), BreitWignerExample.radii _, fun r hr => ?_⟩
    obtain ⟨h3, -, h4⟩ := h2 r hr
    exact ⟨h3, ⟨1 / 2, by norm_num, rfl⟩, fun h => ⟨(h4 h).1, 1 / 2, by norm_num, rfl⟩⟩⟩

/-- Both generations give cross sections for a Breit-Wigner range, and the same ones. -/
example (K : Constants) (lib : CoulombLibrary) (tables : InterpolationLibrary)
    (reactions : ReactionLibrary) (initialBreitWigner : Channel → Verif.BreitWigner.Cache)
    (initial : (g : SpinGroup) → MatrixCache g.channels.length)
    (sort : Old.Sorting Old.Resonance.statisticalFactor) :
    ∃ R m R' S x, fromENDF K lib tables reactions initialBreitWigner initial 1.00866491582 1 ("n".toList)
        ("X".toList) (BreitWignerExample.endfRange false) = .ok R ∧ R.call K lib 3 = .ok (m, R') ∧
      Old.apply (constant K) sort tables .single 0 (BreitWignerExample.endfRange false) = .ok S ∧
      S.evaluate (constant K) .single 3 = .ok x ∧
      m (.inr ⟨"n".toList, "X".toList, .elastic⟩) = some x.elastic ∧
      m (.inr ⟨"n".toList, "X".toList, .capture⟩) = some x.capture ∧
      (m (.inr ⟨"n".toList, "X".toList, .fission⟩)).getD 0 = x.fission := by
  obtain ⟨R, h1, h2⟩ := C65_accepted (K := K) (lib := lib) (tables := tables) (reactions := reactions)
    (initialBreitWigner := initialBreitWigner) (initial := initial) (elementaryCharge := 1)
    (incident := "n".toList) (target := "X".toList) (range := BreitWignerExample.endfRange false)
    (multi := false) ⟨rfl, rfl⟩ rfl .none breitWigner
  obtain ⟨⟨m, R'⟩, hv⟩ := h2 3 (by norm_num) (fun _ _ =>
    ⟨fun _ => .ok (1 / 2), fun _ => .ok (1 / 2), BreitWignerExample.radii _, ⟨1 / 2, by norm_num, rfl⟩,
      ⟨1 / 2, by norm_num, rfl⟩, 1 / 2, rfl⟩)
  have hp := breitWigner
  obtain ⟨S, h3, h4⟩ := Old.C58_exists (c := constant K) (sort := sort) (level := .single)
    (bw := BreitWignerExample.evaluation) (channel := Old.constantRadius (1 / 2))
    (scattering := Old.constantRadius (1 / 2)) ⟨hp.spin, by simp [BreitWignerExample.evaluation], hp.awri,
      by simp [BreitWignerExample.evaluation], fun _ => ⟨1 / 2, by norm_num, rfl⟩, fun _ => ⟨1 / 2, rfl⟩,
      fun lv hlv r hr => ⟨by
        obtain ⟨_, _, -, h⟩ := hp.radii lv hlv
        exact (h r hr).1, fun h => absurd ((by simp [BreitWignerExample.evaluation] :
          ∀ lv ∈ BreitWignerExample.evaluation.lValues, lv.lrx = 0) lv hlv) h⟩, hp.widths⟩
  obtain ⟨x, hx⟩ := h4 3 (by norm_num)
  have h3' : Old.apply (constant K) sort tables .single 0 (BreitWignerExample.endfRange false) = .ok S := by
    rw [← h3]
    unfold Old.apply BreitWignerExample.endfRange
    simp [Old.selectBreitWigner, BreitWignerExample.evaluation, bind, Except.bind]
  obtain ⟨⟨v, k1, k2⟩, k3, k4⟩ := C66_breit_wigner (A := 10) (p := BreitWignerExample.evaluation) (level := .single) rfl h1
    ⟨by norm_num [BreitWignerExample.endfRange], by norm_num [BreitWignerExample.endfRange]⟩ hv h3' hx rfl
    (sameRange rfl rfl tables) (by norm_num [BreitWignerExample.evaluation]) hp.spin (by norm_num)
    (by simp [BreitWignerExample.evaluation])
    (by simp [BreitWignerExample.evaluation, List.range_succ]) (by simp [BreitWignerExample.evaluation])
    (by simp [BreitWignerExample.evaluation])
  rw [if_neg (by decide), abs_nonpos_iff, sub_eq_zero] at k2
  exact ⟨R, m, R', S, x, h1, hv, h3', hx, k2 ▸ k1, k3, k4⟩

/-- s-wave resonances for both J, one of them with a fission width. -/
noncomputable def reichMoore : ReichMoore :=
  ⟨1 / 2, 1 / 2, 1, [⟨0, 10, 0, [⟨-1, 0, 1, 1, 0, 0⟩, ⟨2, 1, 1, 1, 1, 0⟩]⟩]⟩

theorem reichMoore_physical : PhysicalReichMoore 1.00866491582 10 none 1 reichMoore := by
  refine ⟨by norm_num, by norm_num, by simp [reichMoore], ⟨1, by norm_num [reichMoore]⟩, by simp [reichMoore],
    by simp [reichMoore], by simp [reichMoore], by simp [reichMoore], ⟨?_, ?_⟩, ?_, by simp [reichMoore],
    ?_, ?_⟩
  · intro lv hlv r hr
    simp only [reichMoore, List.mem_singleton] at hlv
    subst hlv
    simp only [List.mem_cons, List.not_mem_nil, or_false] at hr
    rcases hr with rfl | rfl
    · exact ⟨by norm_num [reichMoore], 0, ⟨by norm_num [reichMoore], by norm_num [reichMoore], 1,
        by norm_num [reichMoore]⟩, by norm_num, by norm_num, 0, by norm_num⟩
    · exact ⟨by norm_num [reichMoore], 1, ⟨by norm_num [reichMoore], by norm_num [reichMoore], 2,
        by norm_num [reichMoore]⟩, by norm_num, by norm_num, 2, by norm_num⟩
  · intro lv hlv r hr r' hr' h0 hneg
    simp only [reichMoore, List.mem_singleton] at hlv
    subst hlv
    simp only [List.mem_cons, List.not_mem_nil, or_false] at hr hr'
    rcases hr with rfl | rfl <;> rcases hr' with rfl | rfl <;>
      first | exact absurd rfl h0 | (exfalso; norm_num at hneg)
  · intro lv hlv r hr r' hr' h0 hneg
    simp only [reichMoore, List.mem_singleton] at hlv
    subst hlv
    simp only [List.mem_cons, List.not_mem_nil, or_false] at hr hr'
    rcases hr with rfl | rfl <;> rcases hr' with rfl | rfl <;>
      first | exact absurd rfl h0 | (exfalso; norm_num at hneg)
  · intro J parity
    refine List.Nodup.sublist ((List.filter_sublist).map _) ?_
    by_cases h1 : (1 : ℤ) = parity
    · subst h1
      norm_num [reichMoore]
    · simp [reichMoore, h1]
  · intro lv hlv
    refine ⟨_, _, Example.radii _ _, fun r hr => ⟨lengthOf reichMoore lv, ?_, rfl⟩⟩
    simp only [reichMoore, List.mem_singleton] at hlv
    subst hlv
    norm_num [lengthOf, reichMoore]

/-- Both generations give cross sections for a Reich-Moore range, and the same ones. -/
example (K : Constants) (lib : CoulombLibrary) (tables : InterpolationLibrary)
    (reactions : ReactionLibrary) (initialBreitWigner : Channel → Verif.BreitWigner.Cache)
    (initial : (g : SpinGroup) → MatrixCache g.channels.length)
    (sort : Old.Sorting Old.ReichMoore.Resonance.flaggedStatisticalFactor) (range : Range)
    (hrange : range = ⟨1, 20, 1, 3, 1, none, .reichMoore reichMoore⟩) :
    ∃ R m R' S x, fromENDF K lib tables reactions initialBreitWigner initial 1.00866491582 1 ("n".toList)
        ("X".toList) range = .ok R ∧ R.call K lib 3 = .ok (m, R') ∧
      Old.ReichMoore.apply (constant K) sort tables 0 range = .ok S ∧
      S.evaluate (constant K) 3 = .ok x ∧
      m (.inl (.elastic (pairID "n".toList "X".toList))) = some x.elastic ∧
      m (.inl (.transition (pairID "n".toList "X".toList) "capture".toList)) = some x.capture ∧
      (m (.inl (.transition (pairID "n".toList "X".toList) "fission".toList))).getD 0 = x.fission := by
  have hphys := reichMoore_physical
  obtain ⟨R, h1, h2⟩ := C69_accepted (K := K) (lib := lib) (tables := tables) (reactions := reactions)
    (initialBreitWigner := initialBreitWigner) (initial := initial) (elementaryCharge := 1)
    (incident := "n".toList) (target := "X".toList) (range := range) (nro := none)
    (by rw [hrange]; exact ⟨rfl, rfl⟩) (by rw [hrange]) (by rw [hrange]; exact .none)
    (by rw [hrange]; exact hphys)
  rw [show range.naps = 1 by rw [hrange]] at h2
  have hrad : ∀ ap, 0 < ap → RadiiAt 1.00866491582 10 none 1 ap 3 := fun ap h =>
    ⟨_, _, Example.radii ap _, ⟨ap, h, rfl⟩, ap, rfl⟩
  obtain ⟨⟨m, R'⟩, hv⟩ := h2 3 (by norm_num) (hrad _ (by norm_num [reichMoore])) (by
      intro lv hlv
      refine hrad _ ?_
      simp only [reichMoore, List.mem_singleton] at hlv
      subst hlv
      norm_num [lengthOf, reichMoore]) (by
      intro lv hlv r hr
      simp only [reichMoore, List.mem_singleton] at hlv
      subst hlv
      simp only [List.mem_cons, List.not_mem_nil, or_false] at hr
      rcases hr with rfl | rfl <;> norm_num)
  have hw : ∀ lv ∈ reichMoore.lValues, ∀ r ∈ lv.resonances, 0 ≤ r.neutronWidth ∧ 0 < r.gammaWidth := by
    intro lv hlv r hr
    simp only [reichMoore, List.mem_singleton] at hlv
    subst hlv
    simp only [List.mem_cons, List.not_mem_nil, or_false] at hr
    rcases hr with rfl | rfl <;> norm_num
  obtain ⟨S, h3, h4⟩ := Old.ReichMoore.C59_exists (c := constant K) (sort := sort) (rm := reichMoore)
    (tag := .both) (use := true) (channel := Old.constantRadius (1 / 2))
    (scattering := Old.constantRadius (1 / 2)) ⟨hphys.spin, hphys.some, by simp [reichMoore], hphys.l,
      by simp [reichMoore], fun _ _ => ⟨1 / 2, by norm_num, rfl⟩, fun _ _ => ⟨1 / 2, rfl⟩,
      hphys.energies, hw⟩
  obtain ⟨x, hx⟩ := h4 3 (by norm_num)
  have h3' : Old.ReichMoore.apply (constant K) sort tables 0 range = .ok S := by
    rw [← h3, hrange]
    unfold Old.ReichMoore.apply
    simp [Old.ReichMoore.select, reichMoore, bind, Except.bind]
  have := C66_reich_moore (A := 10) (p := reichMoore) (by rw [hrange]) h1
    (by rw [hrange]; norm_num) hv h3' hx rfl
    (sameRange (by rw [hrange]) (by rw [hrange]) tables) (by norm_num [reichMoore]) hphys.spin (by norm_num)
    hphys.ratio (fun lv hlv r hr => ⟨(hw lv hlv r hr).1, (hw lv hlv r hr).2.le⟩) hphys.different (by norm_num)
    (.inl (by rw [hrange])) hphys.distinct (by simp [reichMoore])
    (by simp [reichMoore]) (by simp [reichMoore])
  exact ⟨R, m, R', S, x, h1, hv, h3', hx, this⟩

end GenerationsExample

open Verif.Endf.Example in
/-- C66, where the generations differ: for an l value with a radius of its own and a J without resonances the
elastic cross sections of a Reich-Moore range are not the same. -/
theorem C66_own_radius_differs : ∃ (p : ReichMoore) (energy : Constants → ℝ),
    PhysicalReichMoore 1 10 none 1 p ∧
    ∀ K lib tables reactions initialBreitWigner initial elementaryCharge incident target range
      (c : Old.WaveConstant) (sort : Old.Sorting Old.ReichMoore.Resonance.flaggedStatisticalFactor),
      c.value = waveConstant K.hbar 1 →
      range.type = 1 ∧ range.representation = 3 → range.parameters = .reichMoore p →
      range.scatteringRadius = none → range.naps = 1 →
      range.lower ≤ energy K ∧ energy K ≤ range.upper →
      ∃ R m R' S x, fromENDF K lib tables reactions initialBreitWigner initial 1 elementaryCharge incident
          target range = .ok R ∧ R.call K lib (energy K) = .ok (m, R') ∧
        Old.ReichMoore.apply c sort tables 0 range = .ok S ∧ S.evaluate c (energy K) = .ok x ∧
        m (.inl (.elastic (pairID incident target))) ≠ some x.elastic := by
  refine ⟨ownRadius, ownEnergy, ownRadius_physical, ?_⟩
  intro K lib tables reactions initialBreitWigner initial elementaryCharge incident target range c sort hc ht
    hpar hr hn hE
  obtain ⟨R, m, R', h1, h2, h3⟩ := ownRadius_differs K lib tables reactions initialBreitWigner initial
    elementaryCharge incident target range ht hpar hr hn hE
  have hphys := ownRadius_physical
  have hpos : 0 < ownEnergy K := by
    have := c.pos
    rw [hc] at this
    unfold ownEnergy
    positivity
  obtain ⟨S, h4, h5⟩ := Old.ReichMoore.C59_exists (c := c) (sort := sort) (rm := ownRadius)
    (tag := .both) (use := true) (channel := Old.constantRadius (1 / 2))
    (scattering := Old.constantRadius (1 / 2)) ⟨hphys.spin, hphys.some, by simp [ownRadius], hphys.l,
      by norm_num [ownRadius], fun _ _ => ⟨1 / 2, by norm_num, rfl⟩, fun _ _ => ⟨1 / 2, rfl⟩,
      hphys.energies, by simp [ownRadius]⟩
  obtain ⟨x, hx⟩ := h5 (ownEnergy K) hpos
  have h4' : Old.ReichMoore.apply c sort tables 0 range = .ok S := by
    rw [← h4]
    unfold Old.ReichMoore.apply
    rw [hpar, hn]
    simp [Old.ReichMoore.select, ownRadius, bind, Except.bind]
  refine ⟨R, m, R', S, x, h1, h2, h4', hx, fun h => h3 ?_⟩
  obtain ⟨first, rest, f1, ws, f2, -, f4, -, -⟩ := Old.ReichMoore.C59 (tag := .both)
    (by norm_num [ownRadius]) (by simp [ownRadius]) h4 hx
  obtain ⟨rfl, rfl⟩ : _ = first ∧ _ = rest := List.cons.inj f1
  rw [hc] at f2 f4
  refine ⟨ws, ?_, fun _ => 0, by simp [ownRadius], ?_⟩
  · unfold LevelWaves
    have hk : ∀ e, e ≠ 0 → 0 < neutronWaveNumber (waveConstant K.hbar 1) 10 e := fun e he =>
      hc ▸ Old.neutronWaveNumber_pos c (A := 10) (by norm_num) he
    simp only [ownRadius] at f2 ⊢
    cases f2 with
    | cons f2 hnil =>
    cases hnil
    refine .cons ?_ .nil
    rw [if_neg (by simp)]
    obtain ⟨-, hw⟩ := f2
    simp only [lRadius] at hw
    rw [if_pos ⟨rfl, by norm_num⟩, if_pos ⟨rfl, by norm_num⟩] at hw
    have hlen : lengthOf ⟨1 / 2, 1 / 2, 1, [⟨0, 10, 2 / 5, [⟨-1, 0, 1, 1, 0, 0⟩]⟩]⟩
        ⟨0, 10, 2 / 5, [⟨-1, 0, 1, 1, 0, 0⟩]⟩ = 2 / 5 := by norm_num [lengthOf]
    refine ⟨by norm_num, by norm_num, fun _ => .ok (2 / 5), fun _ => .ok (2 / 5), by rw [hlen]; exact radii _ _,
      hw.l, ?_, hw.phase, ?_⟩
    · obtain ⟨a, h1, h2⟩ := hw.own
      obtain rfl := Except.ok.inj h1
      rw [penetration_eq (by have := hk (ownEnergy K) hpos.ne'; positivity)] at h2
      exact ⟨_, rfl, h2⟩
    · obtain h := hw.resonances
      revert h
      generalize (_ : CoupledWave × List Coupled).2 = as
      intro h
      cases h with
      | cons h hnil =>
      cases hnil
      refine .cons ?_ .nil
      obtain ⟨a, h1, h2⟩ := h.own
      obtain rfl := Except.ok.inj h1
      have hρ : 0 < neutronWaveNumber (waveConstant K.hbar 1) 10 (-1) * (2 / 5) :=
        mul_pos (hk _ (by norm_num)) (by norm_num)
      rw [penetration_eq hρ.le] at h2
      exact ⟨h.J, h.energy, h.elastic, h.capture, h.fissionA, h.fissionB, ⟨_, rfl, h2⟩,
        h2 ▸ (Old.hardSphere_pos hρ 0).ne'⟩
  · dsimp only
    rw [h, f4]
    simp [ownRadius]

end Verif.Endf
