import Verif.Props.ContinuityBreitWigner
import Verif.Props.UnresolvedAccepted

/-!
# Property C72 for unresolved ranges
-/

namespace Verif

open Filter Topology Complex

variable {K : Constants} {lib : CoulombLibrary} {E₀ : ℝ}

/-! ## Linear interpolation -/

/-- The relation of `Spec.Interpolates` for a list of points. -/
def InterpolatesPoints (table : List (ℝ × ℝ)) (x y : ℝ) : Prop :=
  ∃ (i : ℕ) (x0 y0 x1 y1 : ℝ), table[i]? = some (x0, y0) ∧ table[i + 1]? = some (x1, y1) ∧
    x0 ≤ x ∧ x ≤ x1 ∧ y = Spec.Law.between x0 y0 x1 y1 x .linLin

theorem interpolatesPoints_cons {a b : ℝ × ℝ} {rest : List (ℝ × ℝ)} {x y : ℝ} :
    InterpolatesPoints (a :: b :: rest) x y ↔
      (a.1 ≤ x ∧ x ≤ b.1 ∧ y = a.2 + (b.2 - a.2) * (x - a.1) / (b.1 - a.1)) ∨
        InterpolatesPoints (b :: rest) x y := by
  constructor
  · rintro ⟨i, x0, y0, x1, y1, h0, h1, h⟩
    cases i with
    | zero =>
      obtain rfl := Option.some.inj h0
      obtain rfl := Option.some.inj h1
      exact .inl h
    | succ i => exact .inr ⟨i, x0, y0, x1, y1, h0, h1, h⟩
  · rintro (h | ⟨i, x0, y0, x1, y1, h0, h1, h⟩)
    · exact ⟨0, a.1, a.2, b.1, b.2, rfl, rfl, h⟩
    · exact ⟨i + 1, x0, y0, x1, y1, h0, h1, h⟩

theorem interpolatesPoints_head {a : ℝ × ℝ} {rest : List (ℝ × ℝ)}
    (hp : ((a :: rest).map Prod.fst).Pairwise (· < ·)) {x y : ℝ} (h : InterpolatesPoints (a :: rest) x y) :
    a.1 ≤ x ∧ InterpolatesPoints (a :: rest) a.1 a.2 := by
  obtain ⟨i, x0, y0, x1, y1, h0, h1, hx, -⟩ := h
  constructor
  · cases i with
    | zero =>
      obtain rfl := Option.some.inj h0
      exact hx
    | succ i =>
      have := (List.pairwise_cons.mp hp).1 x0 (List.mem_map.mpr ⟨(x0, y0), List.mem_of_getElem? h0, rfl⟩)
      exact this.le.trans hx
  · cases rest with
    | nil =>
      simp at h1
    | cons b rest =>
      have := (List.pairwise_cons.mp hp).1 b.1 (by simp)
      exact interpolatesPoints_cons.mpr (.inl ⟨le_rfl, this.le, by simp⟩)

/-- Values differ at most in proportion to the abscissae. -/
theorem interpolatesPoints_lipschitz {table : List (ℝ × ℝ)} (hp : (table.map Prod.fst).Pairwise (· < ·)) :
    ∃ C, 0 ≤ C ∧ ∀ x y x' y', InterpolatesPoints table x y → InterpolatesPoints table x' y' →
      |y - y'| ≤ C * |x - x'| := by
  induction table with
  | nil => exact ⟨0, le_rfl, fun _ _ _ _ ⟨_, _, _, _, _, h, _⟩ => by simp at h⟩
  | cons a t ih =>
    cases t with
    | nil => exact ⟨0, le_rfl, fun _ _ _ _ ⟨_, _, _, _, _, _, h, _⟩ => by simp at h⟩
    | cons b rest =>
      obtain ⟨C, hC, hrest⟩ := ih (List.pairwise_cons.mp hp).2
      have hab : a.1 < b.1 := (List.pairwise_cons.mp hp).1 b.1 (by simp)
      set D := |(b.2 - a.2) / (b.1 - a.1)| with hD
      have hD0 : 0 ≤ D := abs_nonneg _
      have first : ∀ x y, y = a.2 + (b.2 - a.2) * (x - a.1) / (b.1 - a.1) → ∀ x' y',
          y' = a.2 + (b.2 - a.2) * (x' - a.1) / (b.1 - a.1) → |y - y'| ≤ D * |x - x'| := by
        rintro x y rfl x' y' rfl
        rw [hD, ← abs_mul]
        refine le_of_eq (congrArg _ ?_)
        ring
      have hb : b.2 = a.2 + (b.2 - a.2) * (b.1 - a.1) / (b.1 - a.1) := by
        rw [mul_div_assoc, div_self (by linarith), mul_one]
        ring
      have mixed : ∀ x y x' y', x ≤ b.1 → y = a.2 + (b.2 - a.2) * (x - a.1) / (b.1 - a.1) →
          InterpolatesPoints (b :: rest) x' y' → |y - y'| ≤ (D + C) * |x - x'| := by
        intro x y x' y' hx hy h'
        obtain ⟨hx', hb'⟩ := interpolatesPoints_head (List.pairwise_cons.mp hp).2 h'
        have h1 := first x y hy b.1 b.2 hb
        have h2 := hrest _ _ _ _ hb' h'
        have h3 := abs_sub_le y b.2 y'
        rw [abs_of_nonpos (show x - b.1 ≤ 0 by linarith)] at h1
        rw [abs_of_nonpos (show b.1 - x' ≤ 0 by linarith)] at h2
        rw [abs_of_nonpos (show x - x' ≤ 0 by linarith)]
        have h4 : D * -(x - b.1) ≤ D * -(x - x') := mul_le_mul_of_nonneg_left (by linarith) hD0
        have h5 : C * -(b.1 - x') ≤ C * -(x - x') := mul_le_mul_of_nonneg_left (by linarith) hC
        linarith
      refine ⟨D + C, add_nonneg hD0 hC, fun x y x' y' h h' => ?_⟩
      have hx0 := abs_nonneg (x - x')
      rcases interpolatesPoints_cons.mp h with h | h <;> rcases interpolatesPoints_cons.mp h' with h' | h'
      · exact (first _ _ h.2.2 _ _ h'.2.2).trans (mul_le_mul_of_nonneg_right (by linarith) hx0)
      · exact mixed _ _ _ _ h.2.1 h.2.2 h'
      · rw [abs_sub_comm y, abs_sub_comm x]
        exact mixed _ _ _ _ h'.2.1 h'.2.2 h
      · exact (hrest _ _ _ _ h h').trans (mul_le_mul_of_nonneg_right (by linarith) hx0)

theorem interpolates_lipschitz {xs ys : List ℝ} (hl : xs.length = ys.length) (hx : xs.Pairwise (· < ·)) :
    ∃ C, 0 ≤ C ∧ ∀ x y x' y', Spec.Interpolates .linLin xs ys x y → Spec.Interpolates .linLin xs ys x' y' →
      |y - y'| ≤ C * |x - x'| :=
  interpolatesPoints_lipschitz (table := xs.zip ys) (by rw [List.map_fst_zip hl.le]; exact hx)

/-- There is only one value at each abscissa. -/
theorem interpolates_unique {xs ys : List ℝ} (hl : xs.length = ys.length) (hx : xs.Pairwise (· < ·))
    {x y y' : ℝ} (h : Spec.Interpolates .linLin xs ys x y) (h' : Spec.Interpolates .linLin xs ys x y') :
    y = y' := by
  obtain ⟨C, -, hC⟩ := interpolates_lipschitz hl hx
  have := hC _ _ _ _ h h'
  rw [sub_self, abs_zero, mul_zero] at this
  exact sub_eq_zero.mp (abs_nonpos_iff.mp this)

theorem interpolates_continuous {xs ys : List ℝ} (hl : xs.length = ys.length) (hx : xs.Pairwise (· < ·))
    {v : ℝ → ℝ} (h : ∀ᶠ E in 𝓝 E₀, Spec.Interpolates .linLin xs ys E (v E)) : ContinuousAt v E₀ := by
  obtain ⟨C, hC, hlip⟩ := interpolates_lipschitz hl hx
  have h0 := h.self_of_nhds
  rw [ContinuousAt, tendsto_iff_norm_sub_tendsto_zero]
  refine squeeze_zero' (g := fun E => C * |E - E₀|) (Eventually.of_forall fun E => norm_nonneg _) ?_ ?_
  · filter_upwards [h] with E hE
    exact hlip _ _ _ _ hE h0
  · have : Continuous fun E : ℝ => C * |E - E₀| := by fun_prop
    have := this.tendsto E₀
    simpa using this

/-! ## Fluctuation integrals -/

theorem average_continuous {D : Spec.Distribution} {f : ℝ → ℝ → ℝ}
    (h : ∀ p ∈ D, ContinuousAt (f p.1) E₀) :
    ContinuousAt (fun E => Spec.average D fun x => f x E) E₀ :=
  sum_map_continuous D fun p hp => continuousAt_const.mul (h p hp)

theorem average₃_continuous {A B C : Spec.Distribution} {f : ℝ → ℝ → ℝ → ℝ → ℝ}
    (h : ∀ a ∈ A, ∀ b ∈ B, ∀ c ∈ C, ContinuousAt (f a.1 b.1 c.1) E₀) :
    ContinuousAt (fun E => Spec.average₃ A B C fun a b c => f a b c E) E₀ :=
  average_continuous (f := fun a E => Spec.average B fun b => Spec.average C fun c => f a b c E) fun a ha =>
    average_continuous (f := fun b E => Spec.average C fun c => f a.1 b c E) fun b hb =>
      average_continuous (f := fun c E => f a.1 b.1 c E) fun c hc => h a ha b hb c hc

namespace Unresolved

open Spec

/-- What a group adds to the cross sections. -/
theorem evaluate_added {E P φ R : ℝ} {g : SpinGroup} {t : Resonance} {r : Data ℝ}
    (hP : g.channel.penetrability K lib E = .ok P) (hφ : g.channel.phaseShift K lib E = .ok φ)
    (hR : g.channel.radii.penetrability E = .ok R) (ht : g.table.call E = .ok t)
    (hk : g.channel.waveNumber K E ≠ 0) (hR0 : R ≠ 0) (hE : 0 ≤ E) (hD : t.spacing ≠ 0)
    (hr : calculateFluctuationIntegrals ⟨t.elastic * Real.sqrt E * (g.table.degrees.elastic * P
        / (g.channel.waveNumber K E * R)), t.capture, t.fission, t.competition⟩ g.table.degrees = .ok r)
    (m : LegacyMap) :
    let factor := 2 * Real.pi * Real.pi / (g.channel.waveNumber K E * g.channel.waveNumber K E)
    let width := t.elastic * Real.sqrt E * (g.table.degrees.elastic * P / (g.channel.waveNumber K E * R))
    ∃ m', g.evaluate K lib E m = .ok (m', g) ∧ Added m m' (fun id => decide (id = legacyID g.channel .elastic)
        || decide (id = legacyID g.channel .capture)
        || (decide (t.fission ≠ 0) && decide (id = legacyID g.channel .fission)))
      fun id => (if id = legacyID g.channel .elastic then factor * (g.channel.spinFactor / t.spacing *
          (width * (width * r.elastic - 2 * (Real.sin φ * Real.sin φ)))) else 0)
        + (if id = legacyID g.channel .capture then factor * g.channel.spinFactor / t.spacing *
          (width * t.capture * r.capture) else 0)
        + if id = legacyID g.channel .fission then factor * g.channel.spinFactor / t.spacing *
          (width * t.fission * r.fission) else 0 := by
  intro factor width
  have h1 := (Added.add m (legacyID g.channel .elastic) (factor * (g.channel.spinFactor / t.spacing *
          (width * (width * r.elastic - 2 * (Real.sin φ * Real.sin φ)))))).trans
    (Added.add _ (legacyID g.channel .capture) (factor * g.channel.spinFactor / t.spacing *
          (width * t.capture * r.capture)))
  set m₁ := (m.add (legacyID g.channel .elastic) (factor * (g.channel.spinFactor / t.spacing *
          (width * (width * r.elastic - 2 * (Real.sin φ * Real.sin φ)))))).add (legacyID g.channel .capture)
    (factor * g.channel.spinFactor / t.spacing * (width * t.capture * r.capture)) with hm₁
  refine ⟨if t.fission ≠ 0 then m₁.add (legacyID g.channel .fission) (factor * g.channel.spinFactor
    / t.spacing * (width * t.fission * r.fission)) else m₁, ?_, ?_⟩
  · unfold SpinGroup.evaluate
    simp only [Bind.bind, Except.bind]
    rw [hP]
    simp only
    rw [hφ]
    simp only
    rw [hR]
    simp only
    rw [ht]
    simp only
    rw [if_neg (by
      rintro (h | h | h | h)
      · exact hk h
      · exact mul_ne_zero hk hR0 h
      · linarith
      · exact hD h), hr]
    rfl
  · by_cases hc : t.fission = 0
    · rw [if_neg (not_not.mpr hc)]
      refine ⟨fun id => ?_, fun id => ?_⟩
      · rw [h1.isSome]
        simp [hc]
      · rw [h1.value, hc]
        simp
    · rw [if_pos hc]
      refine ⟨fun id => ?_, (h1.trans (Added.add _ (legacyID g.channel .fission) _)).value⟩
      rw [(h1.trans (Added.add _ (legacyID g.channel .fission) _)).isSome]
      simp [hc]

end Unresolved

namespace Endf

open Spec (neutronWaveNumber waveConstant AverageGroup)

variable {tables : InterpolationLibrary} {neutronMass : ℝ} {incident target : Str}

theorem settled {ag : AverageGroup} (hx : (ag.rows.map (·.energy)).Pairwise (· < ·))
    {width : Unresolved.Resonance → ℝ} {v : ℝ → ℝ}
    (hv : ∀ᶠ E in 𝓝 E₀, Spec.Interpolates .linLin (ag.rows.map (·.energy)) (ag.rows.map width) E (v E))
    (h : Spec.SettledWidth ag width E₀) : ∀ᶠ E in 𝓝 E₀, (v E = 0 ↔ v E₀ = 0) := by
  have hl : (ag.rows.map (·.energy)).length = (ag.rows.map width).length := by simp
  rcases h with ⟨y, hy, h⟩ | h
  · have e : v E₀ = y := interpolates_unique hl hx hv.self_of_nhds h
    filter_upwards [(interpolates_continuous hl hx hv).eventually_ne (e ▸ hy)] with E hE
    exact iff_of_false hE (e ▸ hy)
  · filter_upwards [hv, h] with E h1 h2
    exact iff_of_true (interpolates_unique hl hx h1 h2)
      (interpolates_unique hl hx hv.self_of_nhds h.self_of_nhds)

/-- Each group is continuous. -/
theorem averageGroup_continuous {d : Spec.AverageParameters} {A : ℝ} {pair : ParticlePair}
    {radii : ChannelRadii} {ag : AverageGroup} {g : Unresolved.SpinGroup}
    (hm : Spec.Makes tables.linLin) (hc : Spec.Conforms .linLin tables.linLin)
    (hg : IsAverageGroup tables pair radii ag g)
    (h : Spec.PhysicalAverages neutronMass A d) (hag : ag ∈ d.groups)
    (hpair : incidentPair neutronMass incident target A d.spin = .ok pair)
    (h1 : Spec.ContinuousRadius radii.penetrability E₀)
    (hpos : ∃ a, 0 < a ∧ radii.penetrability E₀ = .ok a)
    (h2 : Spec.ContinuousRadius radii.phaseShift E₀) (hE : 0 < E₀)
    (hrow : (∃ r ∈ ag.rows, r.energy < E₀) ∧ ∃ r ∈ ag.rows, E₀ < r.energy)
    (hfis : Spec.SettledWidth ag (·.fission) E₀) (hcomp : Spec.SettledWidth ag (·.competition) E₀) :
    ∃ b f, ContinuousGroup Unresolved.SpinGroup.channel (fun E => Unresolved.SpinGroup.evaluate K lib E)
      g E₀ b f := by
  obtain ⟨parity, t, ht, rfl⟩ := hg
  set c := plainChannel .neutron pair pair ⟨ag.l, 1 / 2, ag.J, parity⟩ radii with hcdef
  have hl := h.l ag hag
  obtain ⟨a, ha, hav⟩ := h1
  obtain ⟨b, hb, hbv⟩ := h2
  obtain ⟨a₀, ha₀, hav₀⟩ := hpos
  have ea : a E₀ = a₀ := Except.ok.inj (hav.self_of_nhds.symm.trans hav₀)
  set k := c.waveNumber K with hkdef
  have hk := (waveNumber_continuous K c).continuousAt (x := E₀)
  have hkE : ∀ E, E ≠ 0 → 0 < k E := by
    intro E hE
    show 0 < (lChannel pair radii ag.l).waveNumber K E
    rw [lChannel_waveNumber (K := K) hpair radii ag.l E]
    exact waveNumber_pos K h.mass h.awri.1 hE
  set P : ℝ → ℝ := fun E => hsP ag.l (k E * a E) with hP
  set Φ : ℝ → ℝ := fun E => k E * b E - atanQuotient (hsX ag.l (k E * b E)) (hsY ag.l (k E * b E)) with hΦ
  have cP : ContinuousAt P E₀ := (hsP_continuous hl).continuousAt.comp (f := fun E => k E * a E) (hk.mul ha)
  have cΦ : ContinuousAt (fun E => exp (2 * I * Φ E)) E₀ :=
    (hsPhase_continuous hl).continuousAt.comp (f := fun E => k E * b E) (hk.mul hb)
  have heta : ∀ E, c.eta K E = .ok 0 := fun E => if_neg (by show ChannelType.neutron ≠ .charged; decide)
  have vP : ∀ {E x}, radii.penetrability E = .ok x → c.penetrability K lib E = .ok (hsP ag.l (k E * x)) := by
    intro E x h1
    have h1' : c.radii.penetrability E = .ok x := h1
    unfold Channel.penetrability
    rw [heta, h1']
    exact calculatePenetrability_eq lib hl _ 0
  have vΦ : ∀ {E x}, radii.phaseShift E = .ok x →
      c.phaseShift K lib E = .ok (k E * x - atanQuotient (hsX ag.l (k E * x)) (hsY ag.l (k E * x))) := by
    intro E x h1
    have h1' : c.radii.phaseShift E = .ok x := h1
    unfold Channel.phaseShift
    rw [heta, h1']
    exact calculatePhaseShift_eq lib hl _ 0
  -- the average parameters
  obtain ⟨t', h3, h4⟩ := table_exists hm (h.degrees ag hag) (h.rows ag hag)
  obtain rfl := Except.ok.inj (ht.symm.trans h3)
  obtain ⟨r, hr⟩ : ∃ r : ℝ → Unresolved.Resonance, ∀ᶠ E in 𝓝 E₀, t.call E = .ok (r E) := by
    classical
    obtain ⟨⟨x, hx, hxE⟩, y, hy, hyE⟩ := hrow
    refine ⟨fun E => if he : ∃ r, t.call E = .ok r then he.choose else x, ?_⟩
    filter_upwards [eventually_gt_nhds hxE, eventually_lt_nhds hyE] with E e1 e2
    have he := h4 E ⟨x, hx, e1.le⟩ ⟨y, hy, e2.le⟩
    rw [dif_pos he]
    exact he.choose_spec
  have hav' : ∀ᶠ E in 𝓝 E₀, Spec.IsAverage E ag (r E) := by
    filter_upwards [hr] with E hE
    exact call_average hc ht hE
      ((interpolates_pos (call_spacing hc ht hE)).1 fun r hr => (h.widths ag hag r hr).1).ne'
  have hpw := (h.rows ag hag).2
  have cont : ∀ {width : Unresolved.Resonance → ℝ}, (∀ᶠ E in 𝓝 E₀, Spec.Interpolates .linLin
      (ag.rows.map (·.energy)) (ag.rows.map width) E (width (r E))) →
      ContinuousAt (fun E => width (r E)) E₀ := fun hw =>
    interpolates_continuous (by simp) hpw hw
  have s1 := cont (width := (·.spacing)) (hav'.mono fun E h => h.spacing)
  have s2 := cont (width := (·.elastic)) (hav'.mono fun E h => h.elastic)
  have s3 := cont (width := (·.capture)) (hav'.mono fun E h => h.capture)
  have s4 := cont (width := (·.fission)) (hav'.mono fun E h => h.fission)
  have s5 := cont (width := (·.competition)) (hav'.mono fun E h => h.competition)
  have z4 := settled hpw (hav'.mono fun E h => h.fission) hfis
  have z5 := settled hpw (hav'.mono fun E h => h.competition) hcomp
  have hD : ∀ᶠ E in 𝓝 E₀, 0 < (r E).spacing ∧ 0 ≤ (r E).elastic ∧ 0 < (r E).capture ∧ 0 ≤ (r E).fission ∧
      0 ≤ (r E).competition := by
    filter_upwards [hav'] with E hx
    exact ⟨(interpolates_pos hx.spacing).1 fun r hr => (h.widths ag hag r hr).1,
      (interpolates_pos hx.elastic).2 fun r hr => (h.widths ag hag r hr).2.1,
      (interpolates_pos hx.capture).1 fun r hr => (h.widths ag hag r hr).2.2.1,
      (interpolates_pos hx.fission).2 fun r hr => (h.widths ag hag r hr).2.2.2.1,
      (interpolates_pos hx.competition).2 fun r hr => (h.widths ag hag r hr).2.2.2.2⟩
  obtain ⟨q1, q2, q3, q4, q5, q6, q7⟩ := Unresolved.makeTable_ok ht
  -- widths and integrals
  set W : ℝ → ℝ := fun E => (r E).elastic * Real.sqrt E * (ag.degrees.elastic * P E / (k E * a E)) with hW
  have hka : k E₀ * a E₀ ≠ 0 := (mul_pos (hkE E₀ hE.ne') (ea ▸ ha₀)).ne'
  have cW : ContinuousAt W E₀ :=
    (s2.mul Real.continuous_sqrt.continuousAt).mul ((continuousAt_const.mul cP).div (hk.mul ha) hka)
  set DA := Unresolved.column (ag.degrees.elastic - 1) with hDA
  set DB := Unresolved.fluctuations (r E₀).fission ag.degrees.fission with hDB
  set DC := Unresolved.fluctuations (r E₀).competition ag.degrees.competition with hDC
  set w : ℝ → Data ℝ := fun E => ⟨W E, (r E).capture, (r E).fission, (r E).competition⟩ with hw
  obtain ⟨d1, d2, d3, d4, d5⟩ := h.degrees ag hag
  have hregular : ∀ᶠ E in 𝓝 E₀, Unresolved.Regular (w E) DA DB DC := by
    filter_upwards [hD, eventually_gt_nhds hE, ha.eventually_const_lt (ea ▸ ha₀)] with E e1 e2 e3
    intro x hx y hy z hz
    have p1 := Unresolved.column_pos (by omega) hx
    have p2 := Unresolved.fluctuations_nonneg (fun _ => d4) hy
    have p3 := Unresolved.fluctuations_nonneg (fun _ => d5) hz
    have hW0 : 0 ≤ W E := by
      have := hkE E e2.ne'
      have : 0 ≤ P E := hsP_nonneg hl (mul_pos this e3).le
      have := e1.2.1
      simp only [hW]
      positivity
    have : 0 < Unresolved.totalWidth (w E) x.1 y.1 z.1 := by
      unfold Unresolved.totalWidth
      have t1 := mul_nonneg p1.1.le hW0
      have t2 := mul_nonneg p2.1 e1.2.2.2.1
      have t3 := mul_nonneg p3.1 e1.2.2.2.2
      have := e1.2.2.1
      simp only [hw]
      linarith
    exact this.ne'
  have hint : ∀ᶠ E in 𝓝 E₀, Unresolved.calculateFluctuationIntegrals (w E) ag.degrees
      = .ok (Unresolved.averages (w E) DA DB DC) := by
    filter_upwards [hregular, z4, z5] with E e1 e2 e3
    have hB : Unresolved.fluctuations (w E).fission ag.degrees.fission = DB := by
      simp only [hw, hDB, Unresolved.fluctuations, e2]
    have hC : Unresolved.fluctuations (w E).competition ag.degrees.competition = DC := by
      simp only [hw, hDC, Unresolved.fluctuations, e3]
    have := (Unresolved.integrals_eq (widths := w E) (degrees := ag.degrees)
      ⟨d1, d2, fun _ => d4, fun _ => d5⟩).1
    rw [hB, hC] at this
    exact this e1
  have hreg₀ := hregular.self_of_nhds
  have cT : ∀ x y z : ℝ, ContinuousAt (fun E => Unresolved.totalWidth (w E) x y z) E₀ := fun x y z =>
    (((continuousAt_const.mul cW).add s3).add (continuousAt_const.mul s4)).add (continuousAt_const.mul s5)
  have i1 : ContinuousAt (fun E => (Unresolved.averages (w E) DA DB DC).elastic) E₀ :=
    average₃_continuous (f := fun x y z E => x * x / Unresolved.totalWidth (w E) x y z)
      fun x hx y hy z hz => continuousAt_const.div (cT _ _ _) (hreg₀ x hx y hy z hz)
  have i2 : ContinuousAt (fun E => (Unresolved.averages (w E) DA DB DC).capture) E₀ :=
    average₃_continuous (f := fun x y z E => x / Unresolved.totalWidth (w E) x y z)
      fun x hx y hy z hz => continuousAt_const.div (cT _ _ _) (hreg₀ x hx y hy z hz)
  have i3 : ContinuousAt (fun E => (Unresolved.averages (w E) DA DB DC).fission) E₀ :=
    average₃_continuous (f := fun x y z E => x * y / Unresolved.totalWidth (w E) x y z)
      fun x hx y hy z hz => continuousAt_const.div (cT _ _ _) (hreg₀ x hx y hy z hz)
  have cF : ContinuousAt (fun E => 2 * Real.pi * Real.pi / (k E * k E)) E₀ :=
    continuousAt_const.div (hk.mul hk) (mul_pos (hkE E₀ hE.ne') (hkE E₀ hE.ne')).ne'
  have hD₀ := hD.self_of_nhds.1.ne'
  refine ⟨fun id => decide (id = legacyID c .elastic) || decide (id = legacyID c .capture)
      || (decide ((r E₀).fission ≠ 0) && decide (id = legacyID c .fission)),
    fun E id => (if id = legacyID c .elastic then 2 * Real.pi * Real.pi / (k E * k E)
          * (c.spinFactor / (r E).spacing * (W E * (W E * (Unresolved.averages (w E) DA DB DC).elastic
            - 2 * (Real.sin (Φ E) * Real.sin (Φ E))))) else 0)
        + (if id = legacyID c .capture then 2 * Real.pi * Real.pi / (k E * k E) * c.spinFactor
          / (r E).spacing * (W E * (r E).capture * (Unresolved.averages (w E) DA DB DC).capture) else 0)
        + if id = legacyID c .fission then 2 * Real.pi * Real.pi / (k E * k E) * c.spinFactor
          / (r E).spacing * (W E * (r E).fission * (Unresolved.averages (w E) DA DB DC).fission) else 0,
    fun id => ?_, ?_, ?_⟩
  · refine ((?_ : ContinuousAt _ _).add ?_).add ?_ <;> split <;> try exact continuousAt_const
    · exact cF.mul ((continuousAt_const.div s1 hD₀).mul (cW.mul ((cW.mul i1).sub (continuousAt_const.mul
        (sin_sq_continuous cΦ)))))
    · exact ((cF.mul continuousAt_const).div s1 hD₀).mul ((cW.mul s3).mul i2)
    · exact ((cF.mul continuousAt_const).div s1 hD₀).mul ((cW.mul s4).mul i3)
  · refine finite_or (finite_or (by simp) (by simp)) ?_
    refine Set.Finite.subset (Set.finite_singleton (legacyID c .fission)) fun id hid => ?_
    simp only [Set.mem_ofPred_eq, Bool.and_eq_true, decide_eq_true_eq] at hid
    exact hid.2
  · filter_upwards [hav, hbv, hr, hD, hint, z4, eventually_gt_nhds hE, ha.eventually_const_lt (ea ▸ ha₀)]
      with E e1 e2 e3 e4 e5 e6 e7 e8 m
    obtain ⟨m', k1, k2⟩ := Unresolved.evaluate_added (K := K) (lib := lib) (g := ⟨c, t⟩) (vP e1) (vΦ e2) e1 e3
      (hkE E e7.ne').ne' e8.ne' e7.le e4.1.ne' (by rw [q2]; exact e5) m
    refine ⟨m', _, k1, rfl, ?_⟩
    simp only [ne_eq, e6, q2] at k2
    exact k2

variable {reactions : ReactionLibrary} {initialBreitWigner : Channel → Verif.BreitWigner.Cache}
  {initial : (g : SpinGroup) → MatrixCache g.channels.length} {elementaryCharge : ℝ} {range : Range}
  {nro : Option (ℝ → Outcome ℝ)}

/-- C72 for unresolved ranges: a range that makes sense physically has cross sections at every positive energy
inside it and inside its tables around which its radii are continuous, and they are continuous there, unless
the fission width or the competitive width of a group begins or ceases to vanish at that energy. -/
theorem C72_unresolved {A : ℝ} {d : Spec.AverageParameters}
    (hm : Spec.Makes tables.linLin) (hc : Spec.Conforms .linLin tables.linLin) (htype : range.type = 2)
    (hd : Spec.averageParameters range.lower range.upper range.parameters = some d)
    (ht : Option.Rel (Spec.IsRadiusTable tables) range.scatteringRadius nro)
    (h : Spec.PhysicalAverages neutronMass A d) {channel scattering : ℝ → Outcome ℝ}
    (hr : Spec.IsRadii d.ap nro range.naps (A * neutronMass) channel scattering) :
    ∃ R, fromENDF K lib tables reactions initialBreitWigner initial neutronMass elementaryCharge incident
        target range = .ok R ∧
      ∀ E₀, 0 < E₀ → range.lower < E₀ ∧ E₀ < range.upper →
        Spec.ContinuousRadius channel E₀ → (∃ a, 0 < a ∧ channel E₀ = .ok a) →
        Spec.ContinuousRadius scattering E₀ →
        (∀ g ∈ d.groups, ((∃ r ∈ g.rows, r.energy < E₀) ∧ ∃ r ∈ g.rows, E₀ < r.energy) ∧
          Spec.SettledWidth g (·.fission) E₀ ∧ Spec.SettledWidth g (·.competition) E₀) →
        ∃ m R', R.call K lib E₀ = .ok (m, R') ∧ ∀ ε > 0, ∃ δ > 0, ∀ E, |E - E₀| < δ →
          ∃ m' R', R.call K lib E = .ok (m', R') ∧ ∀ id, Spec.Close ε (m' id) (m id) := by
  obtain ⟨R, hR, hcall⟩ := C67_accepted (K := K) (lib := lib) (reactions := reactions)
    (initialBreitWigner := initialBreitWigner) (initial := initial) (elementaryCharge := elementaryCharge)
    (incident := incident) (target := target) hm hc htype hd ht h hr
  refine ⟨R, hR, fun E₀ h0 hE c1 c2 c3 hg => ?_⟩
  obtain ⟨⟨m, R'⟩, hv⟩ := hcall E₀ h0 c2 (by
      obtain ⟨b, -, hb⟩ := c3
      exact ⟨_, hb.self_of_nhds⟩) fun g hgm => by
    obtain ⟨⟨⟨x, hx, hxE⟩, y, hy, hyE⟩, -⟩ := hg g hgm
    exact ⟨⟨x, hx, hxE.le⟩, y, hy, hyE.le⟩
  refine ⟨m, R', hv, fun ε hε => ?_⟩
  obtain ⟨k1, k2, -⟩ := C47_dispatch hR
  obtain ⟨s, pair, radii, groups, hs, g1, g2, g3, g4⟩ := unresolved_groups hR hd h.awri.2 (radiusTable_of ht)
  obtain ⟨radii', q1, q2, q3, q4⟩ := radii_of_isRadii (mul_pos h.awri.1 h.mass).le hr
  obtain rfl := Except.ok.inj (q1.symm.trans g2)
  obtain ⟨e1, e2, e3⟩ := Verif.BreitWigner.C35_contents g3
  have hlmax : s.lmax ≤ 4 := by
    obtain ⟨g, hgm, e⟩ := e3
    obtain ⟨ag, hag, parity, t, -, rfl⟩ := forall₂_mem_right g4 hgm
    exact e ▸ h.l ag hag
  refine legacy_reconstructor (channel := Unresolved.SpinGroup.channel) (s := s)
    (step := fun E => Unresolved.SpinGroup.evaluate K lib E) ?_ hlmax ?_ ?_ (by rw [k1, k2]; exact hE) hv hε
  · intro E hE m
    unfold Reconstructor.call
    rw [if_pos (by exact hE), hs]
    unfold SystemVariant.evaluate
    exact legacy_call _ _ _ _
  · intro g hgm
    rw [e1] at hgm
    obtain ⟨ag, hag, hgg⟩ := forall₂_mem_right g4 hgm
    obtain ⟨w1, w2, w3⟩ := hg ag hag
    exact averageGroup_continuous hm hc hgg h hag g1 (by rw [q2]; exact c1) (by rw [q2]; exact c2)
      (by rw [q4]; exact c3) h0 w1 w2 w3
  · intro g hgm
    rw [e1] at hgm
    obtain ⟨ag, hag, parity, t, -, rfl⟩ := forall₂_mem_right g4 hgm
    show Spec.ContinuousRadius radii'.phaseShift E₀
    rw [q4]
    exact c3

open UnresolvedExample in
/-- C72 applies to the example of C67 at energy 5, where the first group has fission and competitive widths and
the second has none. -/
example (K : Constants) (lib : CoulombLibrary) (reactions : ReactionLibrary)
    (initialBreitWigner : Channel → Verif.BreitWigner.Cache)
    (initial : (g : SpinGroup) → MatrixCache g.channels.length) :
    ∃ R m R', fromENDF K lib library reactions initialBreitWigner initial 1 1 "n".toList "X".toList
        endfRange = .ok R ∧ R.call K lib 5 = .ok (m, R') ∧ ∀ ε > 0, ∃ δ > 0, ∀ E, |E - 5| < δ →
      ∃ m' R', R.call K lib E = .ok (m', R') ∧ ∀ id, Spec.Close ε (m' id) (m id) := by
  obtain ⟨R, h1, h2⟩ := C72_unresolved (K := K) (lib := lib) (tables := library) (reactions := reactions)
    (initialBreitWigner := initialBreitWigner) (initial := initial) (elementaryCharge := 1)
    (incident := "n".toList) (target := "X".toList) (range := endfRange)
    linear_makes linear_conforms rfl averages_eq .none physical
    (channel := fun _ => .ok (1 / 2)) (scattering := fun _ => .ok (1 / 2)) (BreitWignerExample.radii _)
  have around : ∀ E, Spec.ContinuousRadius (fun _ => .ok (1 / 2)) E := fun E =>
    ⟨fun _ => 1 / 2, continuousAt_const, Eventually.of_forall fun _ => rfl⟩
  have near : ∀ᶠ E in 𝓝 (5 : ℝ), 1 ≤ E ∧ E ≤ 100 := by
    filter_upwards [eventually_gt_nhds (show (1 : ℝ) < 5 by norm_num),
      eventually_lt_nhds (show (5 : ℝ) < 100 by norm_num)] with E h1 h2
    exact ⟨h1.le, h2.le⟩
  obtain ⟨m, R', h3, h4⟩ := h2 5 (by norm_num) ⟨by norm_num [endfRange], by norm_num [endfRange]⟩
    (around 5) ⟨1 / 2, by norm_num, rfl⟩ (around 5) (by
      intro g hg
      simp only [averages, List.mem_cons, List.not_mem_nil, or_false] at hg
      rcases hg with rfl | rfl
      · refine ⟨⟨⟨_, List.mem_cons_self, by norm_num⟩, _, List.mem_cons_of_mem _ List.mem_cons_self,
          by norm_num⟩, .inl ⟨1 / 100 + (1 / 50 - 1 / 100) * ((5 - 1) / (10 - 1)), by norm_num, 0, 1, 1 / 100, 10,
            1 / 50, rfl, rfl, by norm_num, by norm_num, ?_⟩,
          .inl ⟨1 / 10 + (1 / 5 - 1 / 10) * ((5 - 1) / (10 - 1)), by norm_num, 0, 1, 1 / 10, 10, 1 / 5, rfl, rfl,
            by norm_num, by norm_num, ?_⟩⟩ <;>
        norm_num [Spec.Law.between]
      · refine ⟨⟨⟨_, List.mem_cons_self, by norm_num⟩, _, List.mem_cons_of_mem _ List.mem_cons_self,
          by norm_num⟩, .inr ?_, .inr ?_⟩ <;>
        · filter_upwards [near] with E hE
          exact ⟨0, 1, 0, 100, 0, rfl, rfl, hE.1, hE.2, by simp [Spec.Law.between]⟩)
  exact ⟨R, m, R', h1, h3, h4⟩

end Endf

/-! ### Where they jump -/

namespace Unresolved

open Spec

theorem weights_short : ((List.range 10).map fun i => w i 1).sum < 1 := by decide +kernel

theorem points_bounded : ∀ i < 10, q i 0 ≤ 100 := by decide +kernel

theorem average_le {D : Distribution} {f g : ℝ → ℝ} (hD : ∀ p ∈ D, 0 ≤ p.2) (h : ∀ p ∈ D, f p.1 ≤ g p.1) :
    average D f ≤ average D g := by
  have := average_nonneg (f := fun x => g x + -1 * f x) hD fun p hp => by linarith [h p hp]
  rw [average_add, average_mul] at this
  linarith

/-- C72, a jump: without fission the average that gives the capture cross section exceeds by a fixed amount
that with any fission width however small, because the weights of the quadrature do not add up to one. -/
theorem C72_width_jump {elastic capture : ℝ} (he : 0 ≤ elastic) (hc : 0 < capture) :
    ∃ r gap, calculateFluctuationIntegrals ⟨elastic, capture, 0, 0⟩ ⟨1, 0, 2, 0⟩ = .ok r ∧ 0 < gap ∧
      ∀ fission > 0, ∃ r', calculateFluctuationIntegrals ⟨elastic, capture, fission, 0⟩ ⟨1, 0, 2, 0⟩ = .ok r' ∧
        r'.capture ≤ r.capture - gap := by
  have hS : average (column 1) (fun _ => 1) < 1 := by
    rw [average_column_cast _ _ (fun _ => 1) (by simp)]
    have := weights_short
    simp only [mul_one]
    exact_mod_cast this
  have hA : ∀ p ∈ column 0, 0 < p.1 ∧ 0 ≤ p.2 := fun p hp => column_pos (by norm_num) hp
  have hB : ∀ p ∈ column 1, 0 < p.1 ∧ 0 ≤ p.2 := fun p hp => column_pos (by norm_num) hp
  have h0 : 0 < average (column 0) fun a => a / (a * elastic + capture) := by
    have h1 : average (column 0) (fun a => 1 / (100 * elastic + capture) * a)
        ≤ average (column 0) fun a => a / (a * elastic + capture) := by
      refine average_le (fun p hp => (hA p hp).2) fun p hp => ?_
      have hp0 := (hA p hp).1
      have hp1 : p.1 ≤ 100 := by
        obtain ⟨i, hi, rfl⟩ := mem_column.mp hp
        show ((q i 0 : ℚ) : ℝ) ≤ 100
        exact_mod_cast points_bounded i hi
      rw [one_div_mul_eq_div]
      exact div_le_div_of_nonneg_left hp0.le (by positivity)
        (by linarith [mul_le_mul_of_nonneg_right hp1 he])
    rw [average_mul] at h1
    have h2 := (C55_moments 1 le_rfl (by norm_num)).2.2.1
    rw [abs_le] at h2
    refine lt_of_lt_of_le (mul_pos (by positivity) ?_) h1
    linarith [h2.1]
  have regular : ∀ f : ℝ, 0 ≤ f → Regular ⟨elastic, capture, f, 0⟩ (column 0) (column 1) fixed ∧
      Regular ⟨elastic, capture, f, 0⟩ (column 0) fixed fixed := by
    intro f hf
    have key : ∀ a b c : ℝ, 0 ≤ a → 0 ≤ b → totalWidth ⟨elastic, capture, f, 0⟩ a b c ≠ 0 := by
      intro a b c ha hb
      unfold totalWidth
      have := mul_nonneg ha he
      have := mul_nonneg hb hf
      have : 0 < a * elastic + capture + b * f + c * 0 := by linarith
      exact this.ne'
    refine ⟨fun a ha b hb c _ => key _ _ _ (hA a ha).1.le (hB b hb).1.le, fun a ha b hb c _ =>
      key _ _ _ (hA a ha).1.le ?_⟩
    rw [List.mem_singleton.mp hb]
  have e₀ := (integrals_eq (widths := ⟨elastic, capture, 0, 0⟩) (degrees := ⟨1, 0, 2, 0⟩)
    ⟨by norm_num, by norm_num, by simp, by simp⟩).1
  simp only [fluctuations, if_true] at e₀
  refine ⟨_, (1 - average (column 1) fun _ => 1) * average (column 0) fun a => a / (a * elastic + capture),
    e₀ (regular 0 le_rfl).2, mul_pos (by linarith) h0, fun f hf => ?_⟩
  have e₁ := (integrals_eq (widths := ⟨elastic, capture, f, 0⟩) (degrees := ⟨1, 0, 2, 0⟩)
    ⟨by norm_num, by norm_num, by simp, by simp⟩).1
  simp only [fluctuations, if_true, if_neg hf.ne'] at e₁
  refine ⟨_, e₁ (regular f hf.le).1, ?_⟩
  simp only [averages, average₃_fixed_right, totalWidth]
  have e2 : (average (column 0) fun a => average fixed fun b => a / (a * elastic + capture + b * 0 + 0 * 0))
      = average (column 0) fun a => a / (a * elastic + capture) := by
    simp [average, fixed]
  have e3 : (average (column 0) fun a => average (column 1) fun b => a / (a * elastic + capture + b * f + 0 * 0))
      ≤ (average (column 1) fun _ => 1) * average (column 0) fun a => a / (a * elastic + capture) := by
    rw [← average_mul]
    refine average_le (fun p hp => (hA p hp).2) fun p hp => ?_
    rw [mul_comm (average (column 1) fun _ => 1), ← average_const]
    refine average_le (fun p hp => (hB p hp).2) fun p' hp' => ?_
    have := mul_nonneg (hB p' hp').1.le hf.le
    have := mul_nonneg (hA p hp).1.le he
    exact div_le_div_of_nonneg_left (hA p hp).1.le (by linarith) (by linarith)
  rw [show (1 : ℕ) - 1 = 0 from rfl, show (2 : ℕ) - 1 = 1 from rfl, e2]
  linarith

/-- The jump for widths of 1/10 and 1/20. -/
example : ∃ r gap, calculateFluctuationIntegrals ⟨1 / 10, 1 / 20, 0, 0⟩ ⟨1, 0, 2, 0⟩ = .ok r ∧ 0 < gap ∧
    ∀ fission > 0, ∃ r', calculateFluctuationIntegrals ⟨1 / 10, 1 / 20, fission, 0⟩ ⟨1, 0, 2, 0⟩ = .ok r' ∧
      r'.capture ≤ r.capture - gap :=
  C72_width_jump (by norm_num) (by norm_num)

end Unresolved

end Verif
