import Verif.Props.Sensitivity
import Verif.Lemmas.ContinuityLegacy

/-!
# Property C80 for unresolved ranges: cross sections are continuous functions of the average parameters
-/

namespace Verif.Unresolved

open Filter Topology Spec

/-- The average parameters `t'` are those of `t` up to less than `δ`; widths that vanish vanish in both. -/
structure NearParameters (δ : ℝ) (t t' : Resonance) : Prop where
  spacing : |t'.spacing - t.spacing| < δ
  elastic : |t'.elastic - t.elastic| < δ
  capture : |t'.capture - t.capture| < δ
  fission : |t'.fission - t.fission| < δ
  competition : |t'.competition - t.competition| < δ
  noFission : t.fission = 0 ↔ t'.fission = 0
  noCompetition : t.competition = 0 ↔ t'.competition = 0

/-- The parameters as a point. -/
def point (t : Resonance) : Fin 5 → ℝ := ![t.spacing, t.elastic, t.capture, t.fission, t.competition]

/-- The filter of parameters close to those given. -/
def near (t : Resonance) : Filter Resonance := comap point (𝓝 (point t))

theorem near_field (t : Resonance) (i : Fin 5) : Tendsto (fun y => point y i) (near t) (𝓝 (point t i)) :=
  ((continuous_apply i).tendsto (point t)).comp tendsto_comap

theorem near_mem {t : Resonance} {s : Set Resonance} (h : s ∈ near t) :
    ∃ δ > 0, ∀ y, NearParameters δ t y → y ∈ s := by
  obtain ⟨u, hu, hus⟩ := mem_comap.mp h
  obtain ⟨δ, hδ, hb⟩ := Metric.mem_nhds_iff.mp hu
  refine ⟨δ, hδ, fun y hy => hus (hb ?_)⟩
  rw [Metric.mem_ball, dist_pi_lt_iff hδ]
  obtain ⟨h0, h1, h2, h3, h4, -, -⟩ := hy
  intro i
  rw [Real.dist_eq]
  fin_cases i <;> assumption

theorem average_tendsto {α : Type*} {l : Filter α} {D : Distribution} {f : ℝ → α → ℝ} {g : ℝ → ℝ}
    (h : ∀ p ∈ D, Tendsto (f p.1) l (𝓝 (g p.1))) :
    Tendsto (fun y => average D fun x => f x y) l (𝓝 (average D g)) := by
  unfold average
  induction D with
  | nil => simpa using tendsto_const_nhds
  | cons p D ih =>
    simp only [List.map_cons, List.sum_cons]
    exact ((h p List.mem_cons_self).const_mul _).add (ih fun q hq => h q (List.mem_cons_of_mem _ hq))

theorem average₃_tendsto {α : Type*} {l : Filter α} {A B C : Distribution} {f : ℝ → ℝ → ℝ → α → ℝ}
    {g : ℝ → ℝ → ℝ → ℝ}
    (h : ∀ a ∈ A, ∀ b ∈ B, ∀ c ∈ C, Tendsto (f a.1 b.1 c.1) l (𝓝 (g a.1 b.1 c.1))) :
    Tendsto (fun y => average₃ A B C fun a b c => f a b c y) l (𝓝 (average₃ A B C g)) :=
  average_tendsto (f := fun a y => average B fun b => average C fun c => f a b c y) fun a ha =>
    average_tendsto (f := fun b y => average C fun c => f a.1 b c y) fun b hb =>
      average_tendsto (f := fun c y => f a.1 b.1 c y) fun c hc => h a ha b hb c hc

/-- The average widths at an energy; `v` is the factor of the neutron width. -/
def widthsOf (v : ℝ) (t : Resonance) : Data ℝ := ⟨t.elastic * v, t.capture, t.fission, t.competition⟩

theorem totalWidth_near (t : Resonance) (v a b c : ℝ) :
    Tendsto (fun y => totalWidth (widthsOf v y) a b c) (near t) (𝓝 (totalWidth (widthsOf v t) a b c)) :=
  (((((near_field t 1).mul_const v).const_mul a).add (near_field t 2)).add
    ((near_field t 3).const_mul b)).add ((near_field t 4).const_mul c)

theorem regular_near {t : Resonance} {v : ℝ} {A B C : Distribution}
    (h : Regular (widthsOf v t) A B C) : ∀ᶠ y in near t, Regular (widthsOf v y) A B C := by
  have all : ∀ {D : Distribution} {P : ℝ × ℝ → Resonance → Prop}, (∀ p ∈ D, ∀ᶠ y in near t, P p y) →
      ∀ᶠ y in near t, ∀ p ∈ D, P p y := by
    intro D P hD
    induction D with
    | nil => simp
    | cons p D ih =>
      filter_upwards [hD p List.mem_cons_self, ih fun q hq => hD q (List.mem_cons_of_mem _ hq)]
        with y h1 h2
      exact List.forall_mem_cons.mpr ⟨h1, h2⟩
  exact all fun a ha => all fun b hb => all fun c hc =>
    (totalWidth_near t v a.1 b.1 c.1).eventually_ne (h a ha b hb c hc)

theorem averages_near {t : Resonance} {v : ℝ} {A B C : Distribution} (h : Regular (widthsOf v t) A B C) :
    Tendsto (fun y => (averages (widthsOf v y) A B C).elastic) (near t)
      (𝓝 (averages (widthsOf v t) A B C).elastic) ∧
    Tendsto (fun y => (averages (widthsOf v y) A B C).capture) (near t)
      (𝓝 (averages (widthsOf v t) A B C).capture) ∧
    Tendsto (fun y => (averages (widthsOf v y) A B C).fission) (near t)
      (𝓝 (averages (widthsOf v t) A B C).fission) := by
  simp only [averages]
  exact ⟨average₃_tendsto (f := fun a b c y => a * a / totalWidth (widthsOf v y) a b c)
      (g := fun a b c => a * a / totalWidth (widthsOf v t) a b c) fun a ha b hb c hc =>
      tendsto_const_nhds.div (totalWidth_near t v a.1 b.1 c.1) (h a ha b hb c hc),
    average₃_tendsto (f := fun a b c y => a / totalWidth (widthsOf v y) a b c)
      (g := fun a b c => a / totalWidth (widthsOf v t) a b c) fun a ha b hb c hc =>
      tendsto_const_nhds.div (totalWidth_near t v a.1 b.1 c.1) (h a ha b hb c hc),
    average₃_tendsto (f := fun a b c y => a * b / totalWidth (widthsOf v y) a b c)
      (g := fun a b c => a * b / totalWidth (widthsOf v t) a b c) fun a ha b hb c hc =>
      tendsto_const_nhds.div (totalWidth_near t v a.1 b.1 c.1) (h a ha b hb c hc)⟩

/-- What a group with these parameters adds. -/
noncomputable def contribution (channel : Channel) (X v φ : ℝ) (A B C : Distribution) (t : Resonance)
    (id : LegacyID) : ℝ :=
  (if id = legacyID channel .elastic then X / t.spacing * (t.elastic * v)
      * (t.elastic * v * (averages (widthsOf v t) A B C).elastic - 2 * Real.sin φ ^ 2) else 0)
    + (if id = legacyID channel .capture then X / t.spacing * (t.elastic * v)
      * (t.capture * (averages (widthsOf v t) A B C).capture) else 0)
    + (if id = legacyID channel .fission then X / t.spacing * (t.elastic * v)
      * (t.fission * (averages (widthsOf v t) A B C).fission) else 0)

theorem contribution_near {channel : Channel} {X v φ : ℝ} {A B C : Distribution} {t : Resonance}
    (hD : t.spacing ≠ 0) (h : Regular (widthsOf v t) A B C) (id : LegacyID) :
    Tendsto (fun y => contribution channel X v φ A B C y id) (near t)
      (𝓝 (contribution channel X v φ A B C t id)) := by
  obtain ⟨h1, h2, h3⟩ := averages_near h
  have n : Tendsto (fun y : Resonance => y.elastic * v) (near t) (𝓝 (t.elastic * v)) :=
    (near_field t 1).mul_const v
  have f : Tendsto (fun y : Resonance => X / y.spacing * (y.elastic * v)) (near t)
      (𝓝 (X / t.spacing * (t.elastic * v))) := (tendsto_const_nhds.div (near_field t 0) hD).mul n
  have c : Tendsto (fun y : Resonance => y.capture) (near t) (𝓝 t.capture) := near_field t 2
  have g : Tendsto (fun y : Resonance => y.fission) (near t) (𝓝 t.fission) := near_field t 3
  unfold contribution
  refine (Tendsto.add ?_ ?_).add ?_
  · split_ifs
    · exact f.mul ((n.mul h1).sub_const _)
    · exact tendsto_const_nhds
  · split_ifs
    · exact f.mul (c.mul h2)
    · exact tendsto_const_nhds
  · split_ifs
    · exact f.mul (g.mul h3)
    · exact tendsto_const_nhds

/-! ## Spin groups -/

/-- The second group has the channel and the degrees of freedom of the first and, at the energy, nearly its
average parameters. -/
structure NearGroup (δ E : ℝ) (g g' : SpinGroup) : Prop where
  channel : g'.channel = g.channel
  degrees : g'.table.degrees = g.table.degrees
  parameters : ∀ t, g.table.call E = .ok t → ∃ t', g'.table.call E = .ok t' ∧ NearParameters δ t t'

theorem NearGroup.mono {δ δ' E : ℝ} (m : δ ≤ δ') {g g' : SpinGroup} (h : NearGroup δ E g g') :
    NearGroup δ' E g g' := by
  refine ⟨h.channel, h.degrees, fun t ht => ?_⟩
  obtain ⟨t', h1, a0, a1, a2, a3, a4, a5, a6⟩ := h.parameters t ht
  exact ⟨t', h1, a0.trans_le m, a1.trans_le m, a2.trans_le m, a3.trans_le m, a4.trans_le m, a5, a6⟩

variable {K : Constants} {lib : CoulombLibrary} {E : ℝ}

/-- What nearby groups add to the cross sections is close to what the group adds, whatever there was before. -/
theorem group_near {g g₁ : SpinGroup} (hu : Unsigned g.table.degrees) {m m₁ : LegacyMap}
    (h : g.evaluate K lib E m = .ok (m₁, g₁)) {ε : ℝ} (hε : 0 < ε) :
    g₁.channel = g.channel ∧ ∃ δ > 0, ∀ g', NearGroup δ E g g' → ∀ start, ∃ m' g₁',
      g'.evaluate K lib E start = .ok (m', g₁') ∧ g₁'.channel = g.channel ∧
      ∀ id, |((m' id).getD 0 - (start id).getD 0) - ((m₁ id).getD 0 - (m id).getD 0)| < ε := by
  obtain ⟨P, φ, R, t, r, hP, hφ, hr, ht, hg, hk, hR0, hE, hD, hint, hm⟩ := evaluate_ok h
  refine ⟨by rw [hg], ?_⟩
  set v := Real.sqrt E * (g.table.degrees.elastic * P / (g.channel.waveNumber K E * R)) with hv
  set X := 2 * Real.pi ^ 2 / g.channel.waveNumber K E ^ 2 * g.channel.spinFactor with hX
  have ew : ∀ t : Resonance, (⟨t.elastic * Real.sqrt E * (g.table.degrees.elastic * P
      / (g.channel.waveNumber K E * R)), t.capture, t.fission, t.competition⟩ : Data ℝ)
      = widthsOf v t := by
    intro t
    rw [widthsOf, hv, mul_assoc]
  rw [ew] at hint
  obtain ⟨hin, hreg, e⟩ := integrals_ok hu hint
  set A := column (g.table.degrees.elastic - 1) with hA
  set B := fluctuations (widthsOf v t).fission g.table.degrees.fission with hB
  set C := fluctuations (widthsOf v t).competition g.table.degrees.competition with hC
  have value : ∀ id, (m₁ id).getD 0 - (m id).getD 0 = contribution g.channel X v φ A B C t id := by
    intro id
    rw [hm, e, contribution]
    simp only [mul_assoc t.elastic, ← hv]
    ring
  have hclose : ∀ id, ∀ᶠ y in near t, |contribution g.channel X v φ A B C y id
      - contribution g.channel X v φ A B C t id| < ε := by
    intro id
    have := (contribution_near (channel := g.channel) (X := X) (φ := φ) hD hreg id).eventually
      (Metric.ball_mem_nhds _ hε)
    filter_upwards [this] with y hy
    rwa [← Real.dist_eq]
  have hspacing : ∀ᶠ y in near t, Resonance.spacing y ≠ 0 :=
    (show Tendsto Resonance.spacing (near t) (𝓝 t.spacing) from near_field t 0).eventually_ne hD
  obtain ⟨δ, hδ, hall⟩ := near_mem ((((regular_near hreg).and hspacing).and
    (hclose (legacyID g.channel .elastic))).and
    ((hclose (legacyID g.channel .capture)).and (hclose (legacyID g.channel .fission))))
  refine ⟨δ, hδ, fun g' hg' start => ?_⟩
  obtain ⟨t', ht', hn⟩ := hg'.parameters t ht
  obtain ⟨⟨⟨k0, kD⟩, k1⟩, k2, k3⟩ := hall t' hn
  have eB : fluctuations (widthsOf v t').fission g.table.degrees.fission = B := by
    rw [hB]
    unfold fluctuations widthsOf
    simp only [hn.noFission]
  have eC : fluctuations (widthsOf v t').competition g.table.degrees.competition = C := by
    rw [hC]
    unfold fluctuations widthsOf
    simp only [hn.noCompetition]
  have hin' : InTables (widthsOf v t') g.table.degrees :=
    ⟨hin.1, hin.2.1, fun hf => hin.2.2.1 fun h0 => hf (hn.noFission.mp h0),
      fun hx => hin.2.2.2 fun h0 => hx (hn.noCompetition.mp h0)⟩
  have hint' : calculateFluctuationIntegrals (widthsOf v t') g.table.degrees
      = .ok (averages (widthsOf v t') A B C) := by
    rw [← eB, ← eC, hA]
    refine (C37_averages hin').1 ?_
    rw [eB, eC]
    exact k0
  have hok : ∃ m' g₁', g'.evaluate K lib E start = .ok (m', g₁') := by
    unfold SpinGroup.evaluate
    simp only [hg'.channel, hP, hφ, hr, ht', Bind.bind, Except.bind, hg'.degrees]
    rw [if_neg (by
      push Not
      exact ⟨hk, mul_ne_zero hk hR0, hE, kD⟩)]
    rw [ew, hint']
    exact ⟨_, _, rfl⟩
  obtain ⟨m', g₁', h'⟩ := hok
  obtain ⟨P', φ', R', s', r', hP', hφ', hr', hs', hg₁, -, -, -, -, hi', hm'⟩ := evaluate_ok h'
  rw [hg'.channel] at hP' hφ' hr' hi' hm'
  rw [hg'.degrees] at hi' hm'
  obtain rfl : P = P' := Except.ok.inj (hP.symm.trans hP')
  obtain rfl : φ = φ' := Except.ok.inj (hφ.symm.trans hφ')
  obtain rfl : R = R' := Except.ok.inj (hr.symm.trans hr')
  obtain rfl : t' = s' := Except.ok.inj (ht'.symm.trans hs')
  rw [ew, hint'] at hi'
  obtain rfl := Except.ok.inj hi'
  have value' : ∀ id, (m' id).getD 0 - (start id).getD 0 = contribution g.channel X v φ A B C t' id := by
    intro id
    rw [hm', contribution]
    simp only [mul_assoc t'.elastic, ← hv]
    ring
  refine ⟨m', g₁', h', by rw [hg₁, hg'.channel], fun id => ?_⟩
  rw [value, value']
  by_cases i1 : id = legacyID g.channel .elastic
  · rw [i1]; exact k1
  by_cases i2 : id = legacyID g.channel .capture
  · rw [i2]; exact k2
  by_cases i3 : id = legacyID g.channel .fission
  · rw [i3]; exact k3
  · unfold contribution
    rw [if_neg i1, if_neg i2, if_neg i3, if_neg i1, if_neg i2, if_neg i3]
    simpa using hε

/-- C80 for a spin group of the unresolved resonance region: if it can be evaluated at an energy then, for every
tolerance, all groups with the same channel and degrees of freedom and sufficiently close average parameters at
the energy can be evaluated there, and their cross sections are within the tolerance. -/
theorem C80_spin_group {g g₁ : SpinGroup} (hu : Unsigned g.table.degrees) {start m : LegacyMap}
    (h : g.evaluate K lib E start = .ok (m, g₁)) {ε : ℝ} (hε : 0 < ε) :
    ∃ δ > 0, ∀ g', NearGroup δ E g g' → ∃ m' g₁', g'.evaluate K lib E start = .ok (m', g₁') ∧
      ∀ id, |(m' id).getD 0 - (m id).getD 0| < ε := by
  obtain ⟨-, δ, hδ, hall⟩ := group_near hu h hε
  refine ⟨δ, hδ, fun g' hg' => ?_⟩
  obtain ⟨m', g₁', e1, -, e2⟩ := hall g' hg' start
  refine ⟨m', g₁', e1, fun id => ?_⟩
  have := e2 id
  rwa [sub_sub_sub_cancel_right] at this

open LegacySystem in
theorem groups_near {gs : List SpinGroup} : ∀ {m m₁ : LegacyMap} {gs₁ : List SpinGroup},
      (∀ g ∈ gs, Unsigned g.table.degrees) →
      evaluateGroups (fun g => g.evaluate K lib E) gs m = .ok (m₁, gs₁) → ∀ {ε : ℝ}, 0 < ε →
      gs₁.map SpinGroup.channel = gs.map SpinGroup.channel ∧
      ∃ δ > 0, ∀ hs, List.Forall₂ (NearGroup δ E) gs hs →
        ∀ start, ∃ m' hs', evaluateGroups (fun g => g.evaluate K lib E) hs start = .ok (m', hs') ∧
          hs'.map SpinGroup.channel = gs.map SpinGroup.channel ∧
          ∀ id, |((m' id).getD 0 - (start id).getD 0) - ((m₁ id).getD 0 - (m id).getD 0)| < ε := by
  induction gs with
  | nil =>
    intro m m₁ gs₁ _ h ε hε
    cases h
    refine ⟨rfl, 1, one_pos, fun hs h start => ?_⟩
    cases h
    exact ⟨start, [], rfl, rfl, fun id => by simpa using hε⟩
  | cons g gs ih =>
    intro m m₁ gs₁ hu h ε hε
    obtain ⟨n, g₁, rest, a, b, rfl⟩ := evaluateGroups_cons_ok.mp h
    obtain ⟨c1, δ, hδ, c2⟩ := group_near (hu g List.mem_cons_self) a (half_pos hε)
    obtain ⟨d1, δ', hδ', d2⟩ := ih (fun g hg => hu g (List.mem_cons_of_mem _ hg)) b (half_pos hε)
    refine ⟨by rw [List.map_cons, List.map_cons, c1, d1], min δ δ', lt_min hδ hδ', fun hs hhs start => ?_⟩
    cases hhs with
    | cons e1 e2 =>
      obtain ⟨m', g', f1, f2, f3⟩ := c2 _ (e1.mono (min_le_left _ _)) start
      obtain ⟨m'', hs', f4, f5, f6⟩ := d2 _ (e2.imp fun _ _ h => h.mono (min_le_right _ _)) m'
      refine ⟨m'', g' :: hs', evaluateGroups_cons_ok.mpr ⟨m', g', hs', f1, f4, rfl⟩,
        by rw [List.map_cons, List.map_cons, f2, f5], fun id => ?_⟩
      have i1 := abs_lt.mp (f3 id)
      have i2 := abs_lt.mp (f6 id)
      rw [abs_lt]
      constructor <;> linarith [i1.1, i1.2, i2.1, i2.2]

/-- C80 for a compound system of the unresolved resonance region. -/
theorem C80_system {s s₁ : LegacySystem SpinGroup} (hu : ∀ g ∈ s.groups, Unsigned g.table.degrees)
    {start m : LegacyMap}
    (h : s.evaluate K lib SpinGroup.channel (fun g => g.evaluate K lib E) E start = .ok (m, s₁))
    {ε : ℝ} (hε : 0 < ε) :
    ∃ δ > 0, ∀ s' : LegacySystem SpinGroup, s'.lmax = s.lmax →
      List.Forall₂ (NearGroup δ E) s.groups s'.groups →
      ∃ m' s₁', s'.evaluate K lib SpinGroup.channel (fun g => g.evaluate K lib E) E start = .ok (m', s₁') ∧
        ∀ id, |(m' id).getD 0 - (m id).getD 0| < ε := by
  obtain ⟨n₁, f₁, r₁, R, v, a₁, -, b, hk, c, rfl⟩ := LegacySystem.evaluate_ok h
  obtain ⟨d1, δ, hδ, d2⟩ := groups_near hu a₁ hε
  refine ⟨δ, hδ, fun s' hl hs' => ?_⟩
  obtain ⟨m', hs, e1, e2, e3⟩ := d2 _ hs' start
  rw [← d1, List.map_cons] at e2
  cases hs with
  | nil => cases e2
  | cons f₂ r₂ =>
    rw [List.map_cons] at e2
    have e := (List.cons.inj e2).1
    rw [← e] at b hk c
    rw [← hl] at c
    refine ⟨_, _, LegacySystem.evaluate_of e1 b hk c, fun id => ?_⟩
    rw [LegacyMap.add_getD, LegacyMap.add_getD, e]
    have := e3 id
    rw [sub_sub_sub_cancel_right] at this
    rwa [add_sub_add_right_eq_sub]

/-- A group with fission and competition, and the groups with constant parameters close to its own at the
energy: a case of the theorem. -/
example (lib : CoulombLibrary) (m : LegacyMap) : ∃ m₀,
    Example.group.evaluate Verif.Example.constants lib 2 m = .ok (m₀, Example.group) ∧
    ∀ ε > 0, ∃ δ > 0, ∀ c, |c - Example.parameters.capture| < δ → ∃ m' g',
      (⟨Example.group.channel, { Example.table with capture := fun _ => .ok c }⟩ : SpinGroup).evaluate
        Verif.Example.constants lib 2 m = .ok (m', g') ∧ ∀ id, |(m' id).getD 0 - (m₀ id).getD 0| < ε := by
  obtain ⟨m₀, h₀⟩ := Example.evaluates lib m
  refine ⟨m₀, h₀, fun ε hε => ?_⟩
  obtain ⟨δ, hδ, h⟩ := C80_spin_group (g := Example.group)
    ⟨by decide, by decide, by decide, by decide⟩ h₀ hε
  refine ⟨δ, hδ, fun c hc => h _ ⟨rfl, rfl, fun t ht => ?_⟩⟩
  obtain rfl := Except.ok.inj (Example.table_call.symm.trans ht)
  refine ⟨{ Example.parameters with capture := c }, ?_, ?_⟩
  · have h : ∀ a b : ℝ, Example.linearAt [(1, a), (100, b)] 2
        = .ok (a + (b - a) * ((2 - 1) / (100 - 1))) := by
      intro a b
      rw [Example.linearAt, if_pos (by norm_num)]
    unfold Table.call Example.table Example.parameters
    simp only [h, Bind.bind, Except.bind, pure, Except.pure, Except.ok.injEq, Resonance.mk.injEq, true_and]
    norm_num
  · constructor <;> first | exact hc | exact Iff.rfl | simpa using hδ

end Verif.Unresolved
