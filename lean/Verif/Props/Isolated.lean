import Verif.Lemmas.Isolated
import Verif.Props.Fission
import Verif.Props.BreitWignerAccepted
import Verif.Props.LowEnergyRange

/-!
# Property C109: isolated s-wave resonances mean the same in the Breit-Wigner and the Reich-Moore format
-/

namespace Verif.Endf

open Spec Complex

variable {K : Constants} {lib : CoulombLibrary} {tables : InterpolationLibrary}
  {initialBreitWigner : Channel → Verif.BreitWigner.Cache} {neutronMass elementaryCharge E : ℝ}
  {incident target : Str} {reactions : ReactionLibrary}
  {initial : (g : SpinGroup) → MatrixCache g.channels.length} {range : Range}
  {nro : Option (ℝ → Outcome ℝ)} {naps : ℤ} {multi : Bool} {p : BreitWigner} {lv : BreitWignerLValue}

theorem asReichMoore_lValues (h : Isolated p lv) : (asReichMoore p).lValues = [⟨lv.l, lv.awri, 0,
    lv.resonances.map fun r => ⟨r.energy, r.spin, r.neutronWidth, r.gammaWidth, r.fissionWidth, 0⟩⟩] := by
  rw [asReichMoore, h.lValues]
  rfl

theorem asReichMoore_physical (h : PhysicalBreitWigner neutronMass nro naps p) (hi : Isolated p lv) :
    PhysicalReichMoore neutronMass lv.awri nro naps (asReichMoore p) := by
  have hlv : lv ∈ p.lValues := by rw [hi.lValues]; simp
  have e := asReichMoore_lValues hi
  have spins : ∀ r ∈ lv.resonances, ∀ r' ∈ lv.resonances, r.spin ≠ 0 → r'.spin ≠ -r.spin := by
    intro r hr r' hr' h0 hs
    have := h.signs lv hlv r hr r' hr' (by rw [hs, abs_neg])
    rw [hs] at this
    exact h0 (by linarith)
  refine ⟨h.mass, h.awri lv hlv, ?_, h.spin, by rw [e]; simp, by rw [e]; simp, ?_, by simp [asReichMoore],
    ⟨?_, ?_⟩, ?_, ?_, ?_, ?_⟩
  · rw [e]; simp
  · rw [e]; simp [hi.l]
  · rw [e]
    intro x hx r hr
    obtain rfl := List.mem_singleton.mp hx
    obtain ⟨y, hy, rfl⟩ := List.mem_map.mp hr
    exact ⟨by simp [asReichMoore, hi.l], h.spins lv hlv y hy⟩
  · rw [e]
    intro x hx r hr r' hr' h0 hs
    obtain rfl := List.mem_singleton.mp hx
    obtain ⟨y, hy, rfl⟩ := List.mem_map.mp hr
    obtain ⟨y', hy', rfl⟩ := List.mem_map.mp hr'
    exact absurd hs (spins y hy y' hy' h0)
  · unfold FissionOnce
    rw [e]
    intro x hx r hr r' hr' h0 hs
    obtain rfl := List.mem_singleton.mp hx
    obtain ⟨y, hy, rfl⟩ := List.mem_map.mp hr
    obtain ⟨y', hy', rfl⟩ := List.mem_map.mp hr'
    exact absurd hs (spins y hy y' hy' h0)
  · rw [e]
    intro x hx r hr
    obtain rfl := List.mem_singleton.mp hx
    obtain ⟨y, hy, rfl⟩ := List.mem_map.mp hr
    obtain ⟨_, _, _, hres⟩ := h.radii lv hlv
    exact (hres y hy).1
  · intro J parity
    rw [e]
    rw [List.filter_cons]
    split
    · simp only [List.filter_nil, List.flatMap_cons, List.flatMap_nil, List.append_nil]
      have : ∀ l : List BreitWignerResonance, (l.map fun r => |r.spin|).Nodup →
          (((l.map fun r => (⟨r.energy, r.spin, r.neutronWidth, r.gammaWidth, r.fissionWidth, 0⟩ :
            ReichMooreResonance)).filter fun r => |r.spin| = J).map ReichMooreResonance.energy).Nodup := by
        intro l hl
        by_cases hJ : ∃ r ∈ l, |r.spin| = J
        · obtain ⟨r, hr, rfl⟩ := hJ
          rw [List.filter_map]
          have := Verif.Isolated.filter_single hl hr
          simp only [Function.comp_def, this]
          simp
        · push Not at hJ
          rw [List.filter_eq_nil_iff.mpr]
          · simp
          · intro r hr
            obtain ⟨y, hy, rfl⟩ := List.mem_map.mp hr
            simpa using hJ y hy
      exact this _ hi.isolated
    · simp
  · rw [e]
    intro x hx
    obtain rfl := List.mem_singleton.mp hx
    obtain ⟨channel, scattering, hr, hres⟩ := h.radii lv hlv
    refine ⟨channel, scattering, ?_, ?_⟩
    · simpa [lengthOf, asReichMoore] using hr
    · intro r hr
      obtain ⟨y, hy, rfl⟩ := List.mem_map.mp hr
      exact (hres y hy).2.1

/-- What both formulas say of isolated s-wave resonances. -/
theorem isolated_formulas {ws : List (Wave × List Assigned)} {ws' : List (CoupledWave × List Coupled)}
    {m : LegacyID → Option ℝ} {m' : ReactionID → Option ℝ}
    (h : PhysicalBreitWigner neutronMass nro naps p) (hi : Isolated p lv) (hE : E ≠ 0)
    (hr : HasRadii neutronMass nro naps p E)
    (h1 : IsBreitWigner K neutronMass E incident target nro naps multi p ws m)
    (h2 : IsReichMoore K neutronMass lv.awri E incident target nro naps (asReichMoore p) ws' m') :
    m ⟨incident, target, .elastic⟩ = m' (.elastic (pairID incident target)) ∧
    m ⟨incident, target, .capture⟩ = m' (.transition (pairID incident target) "capture".toList) ∧
    (m ⟨incident, target, .fission⟩).getD 0
      = (m' (.transition (pairID incident target) "fission".toList)).getD 0 := by
  have hlv : lv ∈ p.lValues := by rw [hi.lValues]; simp
  have e := asReichMoore_lValues hi
  have hne : lv.resonances ≠ [] := by
    obtain ⟨x, hx, hx'⟩ := h.some
    rw [hi.lValues] at hx
    obtain rfl := List.mem_singleton.mp hx
    exact hx'
  have hA := h.awri lv hlv
  obtain ⟨r1, r2, r3⟩ := C65_regular h1 (A := lv.awri)
    (by rw [hi.lValues]; simp) (by rw [hi.lValues]; simp [hi.l]) (by rw [hi.lValues]; simpa using hne)
  obtain ⟨φ, -, q1⟩ := C69_elastic h2 (by rw [e]; simp) (by rw [e]; simpa using hne) (by rw [e]; simp)
  have hempty : (Finset.range (asReichMoore p).nlsc).filter
      (· ∉ (asReichMoore p).lValues.map ReichMooreLValue.l) = ∅ := by
    rw [e, hi.l]
    ext l
    simp [asReichMoore]
  rw [hempty, Finset.sum_empty, add_zero] at q1
  have q2 := h2.capture
  have q3 := h2.fission
  have v1 := h1.waves
  have v2 := h2.waves
  rw [LevelWaves, e] at v2
  rw [hi.lValues] at v1
  cases v1 with
  | @cons _ w _ t a1 a2 =>
  cases a2
  cases v2 with
  | @cons _ w' _ t b1 b2 =>
  cases b2
  obtain ⟨w, as⟩ := w
  obtain ⟨w', bs⟩ := w'
  simp only [hne, if_false, List.map_eq_nil_iff] at a1 b1
  obtain ⟨-, c1, s1, i1, k1⟩ := a1
  obtain ⟨-, -, c2, s2, i2, k2⟩ := b1
  have elen : lengthOf (asReichMoore p) ⟨lv.l, lv.awri, 0, lv.resonances.map fun r =>
      ⟨r.energy, r.spin, r.neutronWidth, r.gammaWidth, r.fissionWidth, 0⟩⟩ = p.ap := by
    simp [lengthOf, asReichMoore]
  rw [elen] at i2
  obtain ⟨rfl, rfl⟩ := radii_same i1 i2
  obtain ⟨c3, s3, i3, ⟨x, hx0, hx⟩, -⟩ := hr lv hlv
  obtain ⟨rfl, rfl⟩ := radii_same i1 i3
  obtain ⟨c4, s4, i4, hres⟩ := h.radii lv hlv
  obtain ⟨rfl, rfl⟩ := radii_same i1 i4
  have hc := waveConstant_pos K h.mass
  have kpos : ∀ e : ℝ, e ≠ 0 → 0 < neutronWaveNumber (waveConstant K.hbar neutronMass) lv.awri e := by
    intro e he
    have := abs_pos.mpr he
    unfold neutronWaveNumber
    positivity
  have l1 := k1.l
  have l2 := k2.l
  rw [hi.l] at l1
  simp only [hi.l] at l2
  obtain ⟨y, y1, y2, y3⟩ := k1.own
  obtain ⟨z, z1, z2⟩ := k2.own
  obtain rfl := Except.ok.inj (hx.symm.trans y1)
  obtain rfl := Except.ok.inj (hx.symm.trans z1)
  simp only [hi.l, hardSphere] at y2 y3 z2
  obtain ⟨u, u1, u2⟩ := k1.phase
  obtain ⟨v, v1, v2⟩ := k2.phase
  obtain rfl := Except.ok.inj (u1.symm.trans v1)
  have hphase : exp (2 * I * w.φ) = exp (2 * I * w'.φ) := u2.trans v2.symm
  have hp : 0 < w.p := by
    rw [y2]
    have := kpos E hE
    positivity
  have hsame : List.Forall₂ Verif.Isolated.Same as bs ∧ as.map Assigned.J = lv.resonances.map fun r => |r.spin| := by
    have f1 := k1.resonances
    have f2 := k2.resonances
    have hwid := h.widths lv hlv
    simp only at f2
    have hl := hi.l
    have hcomp := hi.competition
    clear * - f1 f2 hwid hres kpos hl hcomp
    generalize lv.resonances = rs at *
    induction f1 generalizing bs with
    | nil =>
      cases f2
      exact ⟨.nil, rfl⟩
    | @cons r a rs as g1 _ ih =>
      cases f2 with
      | @cons _ b _ bs d1 d2 =>
      obtain ⟨j1, j2⟩ := ih _ (fun r hr => hres r (List.mem_cons_of_mem _ hr))
        d2 fun r hr => hwid r (List.mem_cons_of_mem _ hr)
      obtain ⟨w1, w2, w3, -⟩ := hwid r (by simp)
      obtain ⟨n1, ⟨x, hx0, hx⟩, -⟩ := hres r (by simp)
      obtain ⟨y, y1, y2, y3⟩ := g1.own
      obtain ⟨z, z1, z2⟩ := d1.own
      obtain rfl := Except.ok.inj (hx.symm.trans y1)
      obtain rfl := Except.ok.inj (hx.symm.trans z1)
      simp only [hl, hardSphere] at y2 y3 z2
      have hk := kpos _ n1
      refine ⟨.cons ⟨?_, ?_, ?_, ?_, ?_, ?_, ?_, y3, ?_, ?_⟩ j1, ?_⟩
      · rw [g1.J, d1.J]
      · rw [g1.energy, d1.energy]
      · rw [g1.elastic, d1.elastic]
      · rw [g1.capture, d1.capture]
      · rw [g1.fission, d1.fissionA]
      · rw [d1.fissionB]
      · rw [y2, z2]
      · rw [g1.competition, if_pos hcomp]
      · rw [d1.elastic, d1.capture, d1.fissionA, z2]
        exact ⟨w1, w2, w3, mul_pos hk hx0⟩
      · simp [g1.J, j2]
  obtain ⟨t1, t2, t3, t4⟩ := Verif.Isolated.wave (E := E) hsame.1 p.spin (hsame.2 ▸ hi.isolated) hp y3 l1
  obtain ⟨o1, o2, o3⟩ := coupledSums_unique (E := E) (as := bs) (spin := p.spin) (w := ⟨w.l, w.p, w.φ⟩)
    (w' := w') (by rw [l1, l2]) (by rw [y2, z2]) hphase
  have hspin : (asReichMoore p).spin = p.spin := rfl
  simp only [hspin, List.map_cons, List.map_nil, List.sum_cons, List.sum_nil, add_zero, ← o1, ← o2, ← o3,
    ← t3, ← t4] at r1 r2 r3 q1 q2 q3
  refine ⟨?_, r2.trans q2.symm, r3.trans q3.symm⟩
  rw [r1, q1]
  cases multi
  · simp [t2]
  · simp [t1]

/-- C109: isolated s-wave resonances give the same cross sections in the single-level Breit-Wigner, the
multi-level Breit-Wigner and the Reich-Moore format. -/
theorem C109_cross_sections (hm : range.type = 1 ∧ range.representation = if multi then 2 else 1)
    (hp : range.parameters = if multi then .multiLevel p else .singleLevel p)
    (ht : Option.Rel (IsRadiusTable tables) range.scatteringRadius nro)
    (h : PhysicalBreitWigner neutronMass nro range.naps p) (hi : Isolated p lv) :
    ∃ R S, fromENDF K lib tables reactions initialBreitWigner initial neutronMass elementaryCharge incident
        target range = .ok R ∧
      fromENDF K lib tables reactions initialBreitWigner initial neutronMass elementaryCharge incident
        target { range with representation := 3, parameters := .reichMoore (asReichMoore p) } = .ok S ∧
      ∀ E, 0 < E → range.lower ≤ E ∧ E ≤ range.upper → HasRadii neutronMass nro range.naps p E →
        ∃ m m' R' S', R.call K lib E = .ok (m, R') ∧ S.call K lib E = .ok (m', S') ∧
          m (.inr ⟨incident, target, .elastic⟩) = m' (.inl (.elastic (pairID incident target))) ∧
          m (.inr ⟨incident, target, .capture⟩)
            = m' (.inl (.transition (pairID incident target) "capture".toList)) ∧
          (m (.inr ⟨incident, target, .fission⟩)).getD 0
            = (m' (.inl (.transition (pairID incident target) "fission".toList))).getD 0 := by
  have hlv : lv ∈ p.lValues := by rw [hi.lValues]; simp
  have e := asReichMoore_lValues hi
  have h' := asReichMoore_physical h hi
  obtain ⟨R, h1, h2⟩ := C65_accepted (K := K) (lib := lib) (reactions := reactions)
    (initialBreitWigner := initialBreitWigner) (initial := initial) (elementaryCharge := elementaryCharge)
    (incident := incident) (target := target) hm hp ht h
  obtain ⟨S, h3, h4⟩ := C69_accepted (K := K) (lib := lib) (reactions := reactions)
    (initialBreitWigner := initialBreitWigner) (initial := initial) (elementaryCharge := elementaryCharge)
    (incident := incident) (target := target)
    (range := { range with representation := 3, parameters := .reichMoore (asReichMoore p) })
    ⟨hm.1, rfl⟩ rfl ht h'
  refine ⟨R, S, h1, h3, fun E h0 hE hr => ?_⟩
  obtain ⟨⟨m, R'⟩, h5⟩ := h2 E h0.ne' hr
  obtain ⟨c, s, i, hc, -, hs⟩ := hr lv hlv
  have hwid : ∀ x ∈ (asReichMoore p).lValues, ∀ r ∈ x.resonances, 0 ≤ r.neutronWidth ∧ 0 < r.gammaWidth := by
    rw [e]
    intro x hx r hr
    obtain rfl := List.mem_singleton.mp hx
    obtain ⟨y, hy, rfl⟩ := List.mem_map.mp hr
    exact ⟨(h.widths lv hlv y hy).1, (h.widths lv hlv y hy).2.1⟩
  obtain ⟨⟨m', S'⟩, h6⟩ := h4 E h0.ne' ⟨c, s, i, hc, hs⟩ (by
      rw [e]
      intro x hx
      obtain rfl := List.mem_singleton.mp hx
      exact ⟨c, s, by simpa [lengthOf, asReichMoore] using i, hc, hs⟩)
    fun x hx r hr _ => (hwid x hx r hr).2.ne'
  have hn : prescribedRadii range.scatteringRadius.isSome range.naps ≠ none := by
    obtain ⟨a, b, hab, -⟩ := i
    rw [rel_isSome ht, hab]
    simp
  obtain ⟨n1, ws, t1, g1, -⟩ := C65_cross_sections h1 hp hn hE h5
  obtain ⟨n2, ws', t2, g2, -⟩ := C69_cross_sections h3 rfl hn h'.spin h'.ratio
    (fun x hx r hr => ⟨(hwid x hx r hr).1, (hwid x hx r hr).2.le⟩) h'.different h0.le hE h6
  obtain rfl := rel_unique ht t1
  obtain rfl := rel_unique ht t2
  exact ⟨m, m', R', S', h5, h6, isolated_formulas h hi h0.ne' hr g1 g2⟩

/-! ### An example: a resonance for each of the two J of a target of spin 1/2 -/

namespace IsolatedExample

/-- The only l value. -/
noncomputable def value : BreitWignerLValue :=
  ⟨0, 10, 0, 0, [⟨-1, 0, 1, 1 / 10, 0, 0⟩, ⟨5, 1, 2, 1 / 5, 1 / 4, 0⟩]⟩

/-- The evaluation. -/
noncomputable def evaluation : BreitWigner := ⟨1 / 2, 1 / 2, [value]⟩

theorem isolated : Isolated evaluation value :=
  ⟨rfl, rfl, rfl, by simp [value]⟩

theorem physical : PhysicalBreitWigner 1 none 1 evaluation where
  mass := one_pos
  spin := ⟨1, by norm_num [evaluation]⟩
  some := ⟨_, List.mem_cons_self, by simp [value]⟩
  distinct := by simp [evaluation]
  awri := by simp [evaluation, value]
  l := by simp [evaluation, value]
  spins := by
    intro lv hlv r hr
    simp only [evaluation, List.mem_cons, List.not_mem_nil, or_false] at hlv
    obtain rfl := hlv
    simp only [value, List.mem_cons, List.not_mem_nil, or_false] at hr
    rcases hr with rfl | rfl
    · exact ⟨0, ⟨by norm_num [evaluation], by norm_num [evaluation], 1, by norm_num [evaluation]⟩,
        by norm_num [value], by norm_num [value], 0, by norm_num [value]⟩
    · exact ⟨1, ⟨by norm_num [evaluation], by norm_num [evaluation], 2, by norm_num [evaluation]⟩,
        by norm_num [value], by norm_num [value], 2, by norm_num [value]⟩
  signs := by
    intro lv hlv r hr r' hr' h
    simp only [evaluation, List.mem_cons, List.not_mem_nil, or_false] at hlv
    obtain rfl := hlv
    simp only [value, List.mem_cons, List.not_mem_nil, or_false] at hr hr'
    rcases hr with rfl | rfl <;> rcases hr' with rfl | rfl <;> simp at h ⊢
  widths := by
    intro lv hlv r hr
    simp only [evaluation, List.mem_cons, List.not_mem_nil, or_false] at hlv
    obtain rfl := hlv
    simp only [value, List.mem_cons, List.not_mem_nil, or_false] at hr
    rcases hr with rfl | rfl <;> norm_num
  radii := by
    intro lv hlv
    refine ⟨_, _, BreitWignerExample.radii _, ?_⟩
    intro r hr
    simp only [evaluation, List.mem_cons, List.not_mem_nil, or_false] at hlv
    obtain rfl := hlv
    simp only [value, List.mem_cons, List.not_mem_nil, or_false] at hr
    refine ⟨?_, ⟨1 / 2, by norm_num, rfl⟩, fun h => absurd rfl h⟩
    rcases hr with rfl | rfl <;> norm_num

theorem hasRadii (E : ℝ) : HasRadii 1 none 1 evaluation E := fun _ _ =>
  ⟨_, _, BreitWignerExample.radii _, ⟨1 / 2, by norm_num, rfl⟩, ⟨1 / 2, by norm_num, rfl⟩, 1 / 2, rfl⟩

/-- The hypotheses can be met, for both formats at all positive energies. -/
example (multi : Bool) : ∃ range : Range, (range.type = 1 ∧ range.representation = if multi then 2 else 1) ∧
    (range.parameters = if multi then .multiLevel evaluation else .singleLevel evaluation) ∧
    Option.Rel (IsRadiusTable tables) range.scatteringRadius none ∧
    PhysicalBreitWigner 1 none range.naps evaluation ∧ Isolated evaluation value ∧
    ∀ E, HasRadii 1 none range.naps evaluation E := by
  exact ⟨⟨1, 100, 1, if multi then 2 else 1, 1, none,
    if multi then .multiLevel evaluation else .singleLevel evaluation⟩, ⟨rfl, rfl⟩, rfl, .none,
    physical, isolated, hasRadii⟩

end IsolatedExample

end Verif.Endf
