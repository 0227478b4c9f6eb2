import Verif.Lemmas.Fission
import Verif.Props.OrderMore
import Verif.Props.Formats
import Verif.Props.OldReichMooreAccepted
import Mathlib.Tactic.NormNum

/-!
# Property C94: the directions of the two fission channels do not matter
-/

namespace Verif.Endf

open Spec Complex Fission

variable {K : Constants} {lib : CoulombLibrary} {tables : InterpolationLibrary}
  {initialBreitWigner : Channel → Verif.BreitWigner.Cache} {neutronMass elementaryCharge A E : ℝ}
  {incident target : Str} {reactions : ReactionLibrary}
  {initial : (g : SpinGroup) → MatrixCache g.channels.length} {range : Range} {R R₁ R' R₁' : Reconstructor}
  {m m' : ReactionMap} {nro : Option (ℝ → Outcome ℝ)} {p p' : ReichMoore}
  {q : ℕ → ℚ → Matrix (Fin 2) (Fin 2) ℝ}

/-- C94: the cross sections of a Reich-Moore range are the same when the fission vectors of its resonances
are turned or reflected, for each l and J in its own way. -/
theorem C94_cross_sections
    (hR : fromENDF K lib tables reactions initialBreitWigner initial neutronMass elementaryCharge incident
      target range = .ok R)
    (hR' : fromENDF K lib tables reactions initialBreitWigner initial neutronMass elementaryCharge incident
      target { range with parameters := .reichMoore p' } = .ok R')
    (hp : range.parameters = .reichMoore p) (hs : TurnedFission q p p')
    (hn : prescribedRadii range.scatteringRadius.isSome range.naps ≠ none)
    (hI : HalfInt p.spin) (hA : ∀ lv ∈ p.lValues, lv.awri = A)
    (hw : ∀ lv ∈ p.lValues, ∀ r ∈ lv.resonances, 0 ≤ r.neutronWidth ∧ 0 ≤ r.gammaWidth)
    (hd : DistinctEnergies p) (h0 : 0 ≤ E) (hE : range.lower ≤ E ∧ E ≤ range.upper)
    (hm : R.call K lib E = .ok (m, R₁)) (hm' : R'.call K lib E = .ok (m', R₁')) :
    SameCrossSections m m' := by
  have hA' : ∀ lv ∈ p'.lValues, lv.awri = A := by
    intro lv hlv
    obtain ⟨x, hx, hxz⟩ := mem_lValue hs hlv
    rw [← hxz.awri]
    exact hA x hx
  have hw' : ∀ lv ∈ p'.lValues, ∀ r ∈ lv.resonances, 0 ≤ r.neutronWidth ∧ 0 ≤ r.gammaWidth := by
    intro lv hlv r hr
    obtain ⟨x, hx, hxz⟩ := mem_lValue hs hlv
    obtain ⟨y, hy, hyr⟩ := mem_resonance hxz hr
    rw [← hyr.neutronWidth, ← hyr.gammaWidth]
    exact hw x hx y hy
  obtain ⟨n1, ws, t1, g1, o1⟩ := C69_cross_sections hR hp hn hI hA hw hd h0 hE hm
  obtain ⟨n2, ws', t2, g2, o2⟩ := C69_cross_sections hR' rfl hn (hs.spin ▸ hI) hA' hw'
    (distinctEnergies_turned hs hd) h0 hE hm'
  obtain rfl := rel_unique t1 t2
  obtain ⟨vs, g3⟩ := isReichMoore_turned hs g1
  rintro (id | id)
  · exact isReichMoore_unique g3 g2 id
  · rw [o1, o2]

/-- C94: an evaluation that makes sense physically is accepted for every orientation of the fission vectors,
and has the same cross sections. -/
theorem C94_accepted (ht : range.type = 1 ∧ range.representation = 3)
    (hp : range.parameters = .reichMoore p)
    (hr : Option.Rel (IsRadiusTable tables) range.scatteringRadius nro)
    (h : PhysicalReichMoore neutronMass A nro range.naps p) (hs : TurnedFission q p p')
    (hw : ∀ lv ∈ p.lValues, ∀ r ∈ lv.resonances, 0 ≤ r.neutronWidth ∧ 0 ≤ r.gammaWidth) :
    ∃ R R', fromENDF K lib tables reactions initialBreitWigner initial neutronMass elementaryCharge incident
        target range = .ok R ∧
      fromENDF K lib tables reactions initialBreitWigner initial neutronMass elementaryCharge incident
        target { range with parameters := .reichMoore p' } = .ok R' ∧
      ∀ E, 0 < E → range.lower ≤ E ∧ E ≤ range.upper → RadiiAt neutronMass A nro range.naps p.ap E →
        (∀ lv ∈ p.lValues, RadiiAt neutronMass A nro range.naps (lengthOf p lv) E) →
        (∀ lv ∈ p.lValues, ∀ r ∈ lv.resonances, r.energy = E → r.gammaWidth ≠ 0) →
        ∃ m m' R₁ R₁', R.call K lib E = .ok (m, R₁) ∧ R'.call K lib E = .ok (m', R₁') ∧
          SameCrossSections m m' := by
  obtain ⟨R, h1, h2⟩ := C69_accepted (K := K) (lib := lib) (reactions := reactions)
    (initialBreitWigner := initialBreitWigner) (initial := initial) (elementaryCharge := elementaryCharge)
    (incident := incident) (target := target) ht hp hr h
  obtain ⟨R', h3, h4⟩ := C69_accepted (K := K) (lib := lib) (reactions := reactions)
    (initialBreitWigner := initialBreitWigner) (initial := initial) (elementaryCharge := elementaryCharge)
    (incident := incident) (target := target) (p := p')
    (range := { range with parameters := .reichMoore p' }) ht rfl hr (physicalReichMoore_turned hs h)
  refine ⟨R, R', h1, h3, fun E h0 hE hap hlv hpole => ?_⟩
  obtain ⟨⟨m, R₁⟩, h5⟩ := h2 E h0.ne' hap hlv hpole
  obtain ⟨⟨m', R₁'⟩, h6⟩ := h4 E h0.ne' (hs.ap ▸ hap) (fun lv hl => by
      obtain ⟨x, hx, hxz⟩ := mem_lValue hs hl
      rw [lengthOf_turned hs hxz]
      exact hlv x hx) fun lv hl r hr => by
      obtain ⟨x, hx, hxz⟩ := mem_lValue hs hl
      obtain ⟨y, hy, hyr⟩ := mem_resonance hxz hr
      rw [← hyr.energy, ← hyr.gammaWidth]
      exact hpole x hx y hy
  refine ⟨m, m', R₁, R₁', h5, h6, C94_cross_sections h1 h3 hp hs ?_ h.spin h.ratio hw h.different h0.le hE
    h5 h6⟩
  obtain ⟨lv, rest, hl⟩ := List.exists_cons_of_ne_nil h.some
  obtain ⟨channel, scattering, ⟨a, b, hab, -⟩, -⟩ := h.radii lv (by rw [hl]; simp)
  rw [rel_isSome hr, hab]
  simp

/-! ## The older code -/

theorem coupled_unique {k : ℝ → ℝ} {channel : ℝ → Outcome ℝ} {l : ℕ} {r : ReichMooreResonance}
    {a a' : Coupled} (h : IsCoupled k channel l r a) (h' : IsCoupled k channel l r a') : a = a' := by
  obtain ⟨x, r1, r2⟩ := h.own
  obtain ⟨x', r3, r4⟩ := h'.own
  obtain rfl := Except.ok.inj (r1.symm.trans r3)
  have h1 := h.J.trans h'.J.symm
  have h2 := h.energy.trans h'.energy.symm
  have h3 := h.elastic.trans h'.elastic.symm
  have h4 := h.capture.trans h'.capture.symm
  have h5 := h.fissionA.trans h'.fissionA.symm
  have h6 := h.fissionB.trans h'.fissionB.symm
  have h7 := r2.trans r4.symm
  cases a
  cases a'
  simp only at h1 h2 h3 h4 h5 h6 h7
  rw [h1, h2, h3, h4, h5, h6, h7]

theorem coupledWave_unique {k : ℝ → ℝ} {channel scattering : ℝ → Outcome ℝ} {lv : ReichMooreLValue}
    {w w' : CoupledWave} {as as' : List Coupled} (h : IsCoupledWave k channel scattering E lv w as)
    (h' : IsCoupledWave k channel scattering E lv w' as') :
    as = as' ∧ w.l = w'.l ∧ w.p = w'.p ∧ exp (2 * I * w.φ) = exp (2 * I * w'.φ) := by
  obtain ⟨x, r1, r2⟩ := h.own
  obtain ⟨x', r3, r4⟩ := h'.own
  obtain rfl := Except.ok.inj (r1.symm.trans r3)
  obtain ⟨y, r5, r6⟩ := h.phase
  obtain ⟨y', r7, r8⟩ := h'.phase
  obtain rfl := Except.ok.inj (r5.symm.trans r7)
  refine ⟨?_, h.l.trans h'.l.symm, r2.trans r4.symm, r6.trans r8.symm⟩
  have h1 := h.resonances
  have h2 := h'.resonances
  clear h h' r1 r2 r3 r4 r5 r6 r7 r8
  generalize lv.resonances = rs at h1 h2
  induction h1 generalizing as' with
  | nil => cases h2; rfl
  | cons a1 _ ih =>
    cases h2 with
    | cons b1 b2 => rw [coupled_unique a1 b1, ih b2]

theorem coupledSums_unique {w w' : CoupledWave} {as : List Coupled} {spin : ℚ} (hl : w.l = w'.l)
    (hp : w.p = w'.p) (hφ : exp (2 * I * w.φ) = exp (2 * I * w'.φ)) :
    coupledElastic spin E w as = coupledElastic spin E w' as ∧
    coupledCapture spin E w as = coupledCapture spin E w' as ∧
    coupledFission spin E w as = coupledFission spin E w' as := by
  unfold coupledElastic coupledCapture coupledFission
  rw [collision_unique hp hφ, hl, sin_sq_eq_of_exp hφ]
  exact ⟨rfl, rfl, rfl⟩

/-- C94: the same holds for the older Reich-Moore code, whatever it does with equal keys when it sorts. -/
theorem C94_old {c : Old.WaveConstant} {sort sort' : Old.Sorting Old.ReichMoore.Resonance.flaggedStatisticalFactor}
    {tag : Old.ReichMoore.Tag} {channel scattering : ℝ → Outcome ℝ} {S S' : Old.ReichMoore.System}
    {x x' : Old.CrossSection}
    (hs : TurnedFission q p p') (hI : 0 < 4 * p.spin + 2)
    (hc : ∀ lv ∈ p.lValues, ∀ r ∈ lv.resonances, 0 ≤ r.gammaWidth)
    (h : Old.ReichMoore.build c sort p tag channel scattering tag.channel? = .ok S)
    (h' : Old.ReichMoore.build c sort' p' tag channel scattering tag.channel? = .ok S')
    (hx : S.evaluate c E = .ok x) (hx' : S'.evaluate c E = .ok x') : x = x' := by
  have hc' : ∀ lv ∈ p'.lValues, ∀ r ∈ lv.resonances, 0 ≤ r.gammaWidth := by
    intro lv hlv r hr
    obtain ⟨x, hx, hxz⟩ := mem_lValue hs hlv
    obtain ⟨y, hy, hyr⟩ := mem_resonance hxz hr
    rw [← hyr.gammaWidth]
    exact hc x hx y hy
  obtain ⟨first, rest, hl, ws, w1, -, e1, e2, e3⟩ := Old.ReichMoore.C59 hI hc h hx
  obtain ⟨first', rest', hl', ws', w1', -, e1', e2', e3'⟩ := Old.ReichMoore.C59 (hs.spin ▸ hI) hc' h' hx'
  have hf : first.awri = first'.awri := by
    have := hs.lValues
    rw [hl, hl'] at this
    cases this with
    | cons h1 _ => exact h1.awri
  rw [← hf] at w1' e1' e2' e3'
  have hr : ∀ {lv lv' : ReichMooreLValue} {b : Bool} {f : ℝ → Outcome ℝ}, TurnedLValue q lv lv' →
      lRadius b lv' f = lRadius b lv f := by
    intro lv lv' b f h
    unfold lRadius
    rw [h.apl]
  obtain ⟨vs, v1, v2⟩ := relate_along (P' := fun (lv : ReichMooreLValue) (w : CoupledWave × List Coupled) =>
      lv.l ≤ 4 ∧ IsCoupledWave (neutronWaveNumber c.value first.awri) (lRadius tag.channel? lv channel)
        (lRadius tag.scattering? lv scattering) E lv w.1 w.2)
      (V := fun w w' => w.1 = w'.1 ∧ ∃ l, List.Forall₂ (TurnedCoupled (q l)) w.2 w'.2) hs.lValues w1 (by
    rintro y z ⟨w, as⟩ hyz ⟨h4, hw⟩
    dsimp only at hw ⊢
    obtain ⟨bs, k1, k2⟩ := coupled_turned (fun r a ha => ⟨ha.J, ha.fissionA, ha.fissionB⟩)
      (fun r r' a ha hr => ⟨ha.J.trans hr.spin, ha.energy.trans hr.energy, ha.elastic.trans hr.neutronWidth,
        ha.capture.trans hr.gammaWidth, rfl, rfl, hr.energy ▸ ha.own⟩) hyz.resonances hw.resonances
    refine ⟨⟨w, bs⟩, ⟨hyz.l ▸ h4, ?_⟩, rfl, y.l, k2⟩
    rw [hr hyz, hr hyz]
    have hl := hyz.l
    exact ⟨by rw [← hl]; exact hw.l, by rw [← hl]; exact hw.own, by rw [← hl]; exact hw.phase,
      by rw [← hl]; exact k1⟩)
  have sums : ∀ t : CoupledWave × List Coupled → ℝ,
      (∀ l w as bs, List.Forall₂ (TurnedCoupled (q l)) as bs → t (w, as) = t (w, bs)) →
      (∀ w w' as, w.l = w'.l → w.p = w'.p → exp (2 * I * w.φ) = exp (2 * I * w'.φ) →
        t (w, as) = t (w', as)) → (ws.map t).sum = (ws'.map t).sum := by
    intro t ht hu
    refine (map_sum_related v2 ?_).trans (map_sum_unique v1 w1' ?_)
    · rintro ⟨w, as⟩ ⟨w', bs⟩ ⟨g1, l, g2⟩
      dsimp only at g1 g2
      subst g1
      exact ht _ _ _ _ g2
    · rintro lv ⟨w, as⟩ ⟨w', as'⟩ ⟨-, g1⟩ ⟨-, g2⟩
      obtain ⟨rfl, k1, k2, k3⟩ := coupledWave_unique g1 g2
      exact hu _ _ _ k1 k2 k3
  have key := fun {l} {as bs : List Coupled} (h : List.Forall₂ (TurnedCoupled (q l)) as bs) w =>
    sums_turned (E := E) (hs.orthogonal l) h p.spin w
  have d1 := sums (fun w => coupledElastic p.spin E w.1 w.2) (fun _ w _ _ h => (key h w).2.1)
    fun w w' as k1 k2 k3 => (coupledSums_unique k1 k2 k3).1
  have d2 := sums (fun w => coupledCapture p.spin E w.1 w.2) (fun _ w _ _ h => (key h w).2.2.1)
    fun w w' as k1 k2 k3 => (coupledSums_unique k1 k2 k3).2.1
  have d3 := sums (fun w => coupledFission p.spin E w.1 w.2) (fun _ w _ _ h => (key h w).2.2.2)
    fun w w' as k1 k2 k3 => (coupledSums_unique k1 k2 k3).2.2
  rw [← hs.spin] at e1' e2' e3'
  ext
  · rw [e1, e1', d1]
  · rw [e2, e2', d2]
  · rw [e3, e3', d3]

/-! ## Special cases -/

/-- A Reich-Moore evaluation with the two fission widths of every resonance exchanged. -/
noncomputable def ReichMoore.exchanged (p : ReichMoore) : ReichMoore :=
  { p with lValues := p.lValues.map fun lv => { lv with resonances := lv.resonances.map fun r =>
    { r with firstFissionWidth := r.secondFissionWidth, secondFissionWidth := r.firstFissionWidth } } }

theorem turned_map {g : ReichMooreResonance → ReichMooreResonance}
    (hq : ∀ l J, (q l J).transpose * q l J = 1)
    (h : ∀ lv ∈ p.lValues, ∀ r ∈ lv.resonances, TurnedResonance (q lv.l r.spin) r (g r)) :
    TurnedFission q p { p with lValues := p.lValues.map fun lv => { lv with
      resonances := lv.resonances.map g } } := by
  refine ⟨hq, rfl, rfl, rfl, ?_⟩
  dsimp only
  rw [List.forall₂_map_right_iff]
  refine List.forall₂_same.mpr fun lv hlv => ⟨rfl, rfl, rfl, ?_⟩
  dsimp only
  rw [List.forall₂_map_right_iff]
  exact List.forall₂_same.mpr fun r hr => h lv hlv r hr

/-- C94: which of the two fission channels is the first does not matter. -/
theorem C94_exchange (p : ReichMoore) : TurnedFission (fun _ _ => !![0, 1; 1, 0]) p p.exchanged := by
  refine turned_map (fun _ _ => ?_) fun lv _ r _ => ⟨rfl, rfl, rfl, rfl, ?_⟩
  · ext i j
    fin_cases i <;> fin_cases j <;> simp [Matrix.mul_apply, Fin.sum_univ_two]
  · ext i
    fin_cases i <;> simp [fissionVector, Matrix.mulVec, dotProduct, Fin.sum_univ_two]

theorem fissionAmplitude_signed (x : ℝ) : fissionAmplitude (x * |x|) = x := by
  unfold fissionAmplitude
  rcases lt_trichotomy x 0 with h | h | h
  · rw [if_pos (by rw [abs_of_neg h]; nlinarith), abs_of_neg h, show -(x * -x) = (-x) ^ 2 by ring,
      Real.sqrt_sq (by linarith), neg_neg]
  · rw [h]
    simp
  · rw [if_neg (by rw [abs_of_pos h]; nlinarith), abs_of_pos h, show x * x = x ^ 2 by ring,
      Real.sqrt_sq h.le]

/-- A Reich-Moore evaluation with one fission channel, where all fission vectors of an evaluation have the
direction `u`. -/
noncomputable def ReichMoore.single (u : Fin 2 → ℝ) (p : ReichMoore) : ReichMoore :=
  { p with lValues := p.lValues.map fun lv => { lv with resonances := lv.resonances.map fun r =>
    { r with
      firstFissionWidth := (u 0 * fissionVector r 0 + u 1 * fissionVector r 1)
        * |u 0 * fissionVector r 0 + u 1 * fissionVector r 1|
      secondFissionWidth := 0 } } }

/-- C94: if all fission vectors are parallel, one fission channel is enough. -/
theorem C94_single {u : Fin 2 → ℝ} (hu : u 0 ^ 2 + u 1 ^ 2 = 1)
    (hp : ∀ lv ∈ p.lValues, ∀ r ∈ lv.resonances, u 0 * fissionVector r 1 = u 1 * fissionVector r 0) :
    TurnedFission (fun _ _ => !![u 0, u 1; -u 1, u 0]) p (p.single u) := by
  refine turned_map (fun _ _ => ?_) fun lv hlv r hr => ⟨rfl, rfl, rfl, rfl, ?_⟩
  · ext i j
    fin_cases i <;> fin_cases j <;> simp [Matrix.mul_apply, Fin.sum_univ_two] <;> linarith
  · have e := hp lv hlv r hr
    ext i
    fin_cases i
    · show fissionAmplitude _ = _
      rw [fissionAmplitude_signed]
      simp [Matrix.mulVec, dotProduct, Fin.sum_univ_two]
    · show fissionAmplitude 0 = _
      simp [Matrix.mulVec, dotProduct, Fin.sum_univ_two, fissionAmplitude]
      linarith

/-! ## Examples -/

namespace FissionExample

open Formats.Example

/-- The example of C91 with the fission vectors (-1, 0) and (2, 0) turned. -/
noncomputable def turnedEvaluation : ReichMoore := ⟨0, 1, 3, [⟨0, 236, 0,
  [⟨5, 1 / 2, 2, 3, -9 / 25, -16 / 25⟩, ⟨-7, 1 / 2, 1, 1, 36 / 25, 64 / 25⟩]⟩,
  ⟨1, 236, 1, [⟨9, 3 / 2, 1, 2, 0, 0⟩]⟩]⟩

theorem amplitude_sq {x y : ℝ} (h : y = x * |x|) : fissionAmplitude y = x := h ▸ fissionAmplitude_signed x

theorem turned : TurnedFission (fun _ _ => !![3 / 5, -4 / 5; 4 / 5, 3 / 5]) evaluation turnedEvaluation := by
  have a1 : fissionAmplitude (-1) = -1 := amplitude_sq (by norm_num [abs_of_neg])
  have a2 : fissionAmplitude 4 = 2 := amplitude_sq (by norm_num [abs_of_pos])
  have a3 : fissionAmplitude 0 = 0 := amplitude_sq (by norm_num)
  have a4 : fissionAmplitude (-(9 / 25)) = -(3 / 5) := amplitude_sq (by norm_num [abs_of_neg])
  have a5 : fissionAmplitude (-(16 / 25)) = -(4 / 5) := amplitude_sq (by norm_num [abs_of_neg])
  have a6 : fissionAmplitude (36 / 25) = 6 / 5 := amplitude_sq (by norm_num [abs_of_pos])
  have a7 : fissionAmplitude (64 / 25) = 8 / 5 := amplitude_sq (by norm_num [abs_of_pos])
  refine ⟨fun _ _ => ?_, rfl, rfl, rfl, .cons ⟨rfl, rfl, rfl, .cons ?_ (.cons ?_ .nil)⟩
    (.cons ⟨rfl, rfl, rfl, .cons ?_ .nil⟩ .nil)⟩
  · ext i j
    fin_cases i <;> fin_cases j <;> norm_num [Matrix.mul_apply, Fin.sum_univ_two]
  all_goals
    refine ⟨rfl, rfl, rfl, rfl, ?_⟩
    ext i
    fin_cases i <;>
      norm_num [fissionVector, Matrix.mulVec, dotProduct, Fin.sum_univ_two, a1, a2, a3, a4, a5, a6, a7]

/-- Both are accepted and have the same cross sections. -/
example (K : Constants) (lib : CoulombLibrary) (tables : InterpolationLibrary) (reactions : ReactionLibrary)
    (initialBreitWigner : Channel → Verif.BreitWigner.Cache)
    (initial : (g : SpinGroup) → MatrixCache g.channels.length) :
    let range : Range := ⟨0, 10, 1, 3, 1, none, .reichMoore evaluation⟩
    ∃ R R', fromENDF K lib tables reactions initialBreitWigner initial 1 1 "n".toList "U236".toList
        range = .ok R ∧
      fromENDF K lib tables reactions initialBreitWigner initial 1 1 "n".toList "U236".toList
        { range with parameters := .reichMoore turnedEvaluation } = .ok R' ∧
      ∃ m m' R₁ R₁', R.call K lib 5 = .ok (m, R₁) ∧ R'.call K lib 5 = .ok (m', R₁') ∧
        SameCrossSections m m' := by
  intro range
  obtain ⟨R, R', h1, h2, h3⟩ := C94_accepted (K := K) (lib := lib) (tables := tables)
    (reactions := reactions) (initialBreitWigner := initialBreitWigner) (initial := initial)
    (elementaryCharge := 1) (incident := "n".toList) (target := "U236".toList)
    (range := range) ⟨rfl, rfl⟩ rfl .none physical turned (by norm_num [evaluation])
  refine ⟨R, R', h1, h2, h3 5 (by norm_num) (by norm_num [range])
    (Example.radiiAt (by norm_num [evaluation]) _ _) ?_ (by norm_num [evaluation])⟩
  intro lv hlv
  refine Example.radiiAt ?_ _ _
  simp only [evaluation, List.mem_cons, List.not_mem_nil, or_false] at hlv
  rcases hlv with rfl | rfl <;> norm_num [lengthOf, evaluation]

theorem old_physical {p : ReichMoore} (hp : p = evaluation ∨ p = turnedEvaluation) :
    Old.ReichMoore.Physical p (fun _ => .ok 1) (fun _ => .ok 1) := by
  rcases hp with rfl | rfl <;>
  refine ⟨⟨0, by norm_num [evaluation, turnedEvaluation]⟩, by simp [evaluation, turnedEvaluation],
    by norm_num [evaluation, turnedEvaluation], by norm_num [evaluation, turnedEvaluation],
    by norm_num [evaluation, turnedEvaluation], fun _ _ => ⟨1, one_pos, rfl⟩, fun _ _ => ⟨1, rfl⟩,
    by norm_num [evaluation, turnedEvaluation], by norm_num [evaluation, turnedEvaluation]⟩

/-- So it is with the older code. -/
example (c : Old.WaveConstant) (sort sort' : Old.Sorting Old.ReichMoore.Resonance.flaggedStatisticalFactor)
    (tag : Old.ReichMoore.Tag) : ∃ S S' x,
    Old.ReichMoore.build c sort evaluation tag (fun _ => .ok 1) (fun _ => .ok 1) tag.channel? = .ok S ∧
    Old.ReichMoore.build c sort' turnedEvaluation tag (fun _ => .ok 1) (fun _ => .ok 1) tag.channel? = .ok S' ∧
    S.evaluate c 5 = .ok x ∧ S'.evaluate c 5 = .ok x := by
  obtain ⟨S, h1, h2⟩ := Old.ReichMoore.C59_exists (c := c) (sort := sort) (tag := tag) (use := tag.channel?)
    (old_physical (.inl rfl))
  obtain ⟨S', h3, h4⟩ := Old.ReichMoore.C59_exists (c := c) (sort := sort') (tag := tag)
    (use := tag.channel?) (old_physical (.inr rfl))
  obtain ⟨x, hx⟩ := h2 5 (by norm_num)
  obtain ⟨x', hx'⟩ := h4 5 (by norm_num)
  obtain rfl := C94_old turned (by norm_num [evaluation]) (by norm_num [evaluation]) h1 h3 hx hx'
  exact ⟨S, S', x, h1, h3, hx, hx'⟩

end FissionExample

end Verif.Endf
