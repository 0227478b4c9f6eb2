import Verif.Lemmas.OldSystem
import Verif.Props.LegacyFormula

/-!
# Properties C44 and C58: the cross sections of the older Breit-Wigner code
-/

namespace Verif.Old

open Spec (Assigned Wave neutronFactor IsWave IsAssigned neutronWaveNumber competitiveOffset penetration)

theorem forall₂_through {α β γ δ : Type} {P : α → β → Prop} {F : β → δ → Prop} {R : α → γ → Prop}
    {Q : γ → δ → Prop} {as : List α} {bs : List β} {ds : List δ} (h1 : List.Forall₂ P as bs)
    (h2 : List.Forall₂ F bs ds) (h : ∀ a b d, P a b → F b d → ∃ c, R a c ∧ Q c d) :
    ∃ cs, List.Forall₂ R as cs ∧ List.Forall₂ Q cs ds := by
  induction h1 generalizing ds with
  | nil =>
    cases h2
    exact ⟨[], .nil, .nil⟩
  | cons p1 _ ih =>
    cases h2 with
    | cons f1 f2 =>
      obtain ⟨c, c1, c2⟩ := h _ _ _ p1 f1
      obtain ⟨cs, i1, i2⟩ := ih f2
      exact ⟨c :: cs, .cons c1 i1, .cons c2 i2⟩

theorem forall₂_map_sum {γ : Type} {n : ℕ} {Q : γ → Pack n ℝ → Prop} {cs : List γ} {vs : List (Pack n ℝ)}
    (h : List.Forall₂ Q cs vs) {F : γ → ℝ} (i : Fin n) (hF : ∀ c v, Q c v → 4 * v i = F c) :
    4 * (vs.map fun v => v i).sum = (cs.map F).sum := by
  induction h with
  | nil => simp
  | cons q1 _ ih => rw [List.map_cons, List.map_cons, List.sum_cons, List.sum_cons, mul_add, ih, hF _ _ q1]

variable {c : WaveConstant} {sort : Sorting Resonance.statisticalFactor} {level : Level}
  {bw : Endf.BreitWigner} {channel scattering : ℝ → Outcome ℝ} {S : System} {E : ℝ} {x : CrossSection}

/-- The waves of a system and the values of its l values. -/
theorem evaluate_ok (h : build c sort level bw channel scattering = .ok S)
    (hx : S.evaluate c level E = .ok x) :
    ∃ first rest, bw.lValues = first :: rest ∧ neutronWaveNumber c.value first.awri E ≠ 0 ∧
      ∃ (ws : List (Wave × List Assigned)) (outs : List (Pack 3 ℝ)),
      List.Forall₂ (fun lv w => lv.l ≤ 4 ∧
        IsWave (neutronWaveNumber c.value first.awri) channel scattering E lv w.1 w.2) bw.lValues ws ∧
      List.Forall₂ (fun w out => ElasticValue level bw.spin E w.1 w.2 (4 * out 0) ∧
        4 * out 1 = Spec.captureSum bw.spin E w.1 w.2 ∧
        4 * out 2 = Spec.fissionSum bw.spin E w.1 w.2) ws outs ∧
      x.elastic = Real.pi / neutronWaveNumber c.value first.awri E ^ 2
        * (4 * (outs.map fun v => v 0).sum) ∧
      x.capture = Real.pi / neutronWaveNumber c.value first.awri E ^ 2
        * (4 * (outs.map fun v => v 1).sum) ∧
      x.fission = Real.pi / neutronWaveNumber c.value first.awri E ^ 2
        * (4 * (outs.map fun v => v 2).sum) := by
  obtain ⟨first, rest, h1, hI, h2, h3, rfl, rfl, ps, h6, h7⟩ := build_ok h
  unfold System.evaluate at hx
  rw [bind_ok] at hx
  obtain ⟨a, ha, hx⟩ := hx
  rw [bind_ok] at hx
  obtain ⟨b, hb, hx⟩ := hx
  dsimp only at hx
  rw [bind_ok] at hx
  obtain ⟨outs, houts, hx⟩ := hx
  rw [h2, h3, ← h6, mapM_ok, List.forall₂_map_left_iff] at houts
  rw [h2] at hx
  split at hx
  · cases hx
  rename_i hk
  obtain rfl := Except.ok.inj hx
  rw [waveNumber_eq] at hk
  obtain ⟨ws, w1, w2⟩ := forall₂_through h7 houts (R := fun lv (w : Wave × List Assigned) => lv.l ≤ 4 ∧
      IsWave (neutronWaveNumber c.value first.awri) S.channelRadius S.scatteringRadius E lv w.1 w.2)
    (Q := fun w out => ElasticValue level bw.spin E w.1 w.2 (4 * out 0) ∧
      4 * out 1 = Spec.captureSum bw.spin E w.1 w.2 ∧ 4 * out 2 = Spec.fissionSum bw.spin E w.1 w.2)
    fun lv p out hp hf => by
      obtain ⟨w, k1, k2⟩ := call_ok hI hp.1 hp.2 ha hb hf
      exact ⟨(w, p.1), ⟨hp.1.le, k1⟩, k2⟩
  refine ⟨first, rest, h1, hk, ws, outs, w1, w2, ?_, ?_, ?_⟩
  all_goals
    simp only [Pack.foldl_eq, Matrix.cons_val_zero, Matrix.cons_val_one, Matrix.cons_val, zero_add,
      waveNumber_eq]
    ring

/-- C58: the cross sections of the older single-level code are those of the formula, for the resonances of
the evaluation and the radii that were chosen. -/
theorem C58_single (h : build c sort .single bw channel scattering = .ok S)
    (hx : S.evaluate c .single E = .ok x) :
    ∃ first rest, bw.lValues = first :: rest ∧ ∃ ws : List (Wave × List Assigned),
      let k := neutronWaveNumber c.value first.awri
      List.Forall₂ (fun lv w => lv.l ≤ 4 ∧ IsWave k channel scattering E lv w.1 w.2) bw.lValues ws ∧
      k E ≠ 0 ∧
      x.elastic = Real.pi / k E ^ 2 * (ws.map fun w => Spec.singleElastic bw.spin E w.1 w.2).sum ∧
      x.capture = Real.pi / k E ^ 2 * (ws.map fun w => Spec.captureSum bw.spin E w.1 w.2).sum ∧
      x.fission = Real.pi / k E ^ 2 * (ws.map fun w => Spec.fissionSum bw.spin E w.1 w.2).sum := by
  obtain ⟨first, rest, h1, hk, ws, outs, w1, w2, e0, e1, e2⟩ := evaluate_ok h hx
  refine ⟨first, rest, h1, ws, w1, hk, ?_, ?_, ?_⟩
  · rw [e0, forall₂_map_sum w2 0 fun w v h => h.1]
  · rw [e1, forall₂_map_sum w2 1 fun w v h => h.2.1]
  · rw [e2, forall₂_map_sum w2 2 fun w v h => h.2.2]

/-- C58: the cross sections of the older multi-level code are those of the formula, up to the rounding of
the decimals in the table of factors for repeated J. -/
theorem C58_multi (hI : Spec.HalfInt bw.spin) (h : build c sort .multi bw channel scattering = .ok S)
    (hx : S.evaluate c .multi E = .ok x) :
    ∃ first rest, bw.lValues = first :: rest ∧ ∃ ws : List (Wave × List Assigned),
      let k := neutronWaveNumber c.value first.awri
      List.Forall₂ (fun lv w => lv.l ≤ 4 ∧ IsWave k channel scattering E lv w.1 w.2) bw.lValues ws ∧
      k E ≠ 0 ∧
      |x.elastic - Real.pi / k E ^ 2 * (ws.map fun w => Spec.multiElastic bw.spin E w.1 w.2).sum|
        ≤ Real.pi / k E ^ 2 * (4 * ws.length / 10 ^ 15) ∧
      x.capture = Real.pi / k E ^ 2 * (ws.map fun w => Spec.captureSum bw.spin E w.1 w.2).sum ∧
      x.fission = Real.pi / k E ^ 2 * (ws.map fun w => Spec.fissionSum bw.spin E w.1 w.2).sum := by
  obtain ⟨first, rest, h1, hk, ws, outs, w1, w2, e0, e1, e2⟩ := evaluate_ok h hx
  refine ⟨first, rest, h1, ws, w1, hk, ?_, ?_, ?_⟩
  · rw [e0, ← mul_sub, abs_mul, abs_of_nonneg (by positivity)]
    refine mul_le_mul_of_nonneg_left ?_ (by positivity)
    clear e0 e1 e2 h1
    generalize bw.lValues = ls at w1
    induction w2 generalizing ls with
    | nil => simp
    | @cons w out ws outs q1 _ ih =>
      cases w1 with
      | cons l1 l2 =>
        have ih := ih _ l2
        obtain ⟨⟨d, g, k1, k2, k3⟩, -⟩ := q1
        obtain ⟨d', k4, -, k5⟩ := C43_repeated bw.spin hI w.1.l (l1.2.l ▸ l1.1)
        obtain rfl := Except.ok.inj (k1.symm.trans k4)
        obtain rfl := Except.ok.inj (k2.symm.trans (C43_sum bw.spin hI w.1.l))
        have k6 : |(d : ℝ) + (Spec.factorSum bw.spin w.1.l : ℚ) - (2 * w.1.l + 1)| ≤ 1 / 10 ^ 15 := by
          have : |((d - (2 * w.1.l + 1 - Spec.factorSum bw.spin w.1.l) : ℚ) : ℝ)| ≤ 1 / 10 ^ 15 := by
            have := (Rat.cast_le (K := ℝ)).mpr k5
            push_cast at this ⊢
            exact this
          refine le_of_eq_of_le ?_ this
          congr 1
          push_cast
          ring
        simp only [List.map_cons, List.sum_cons, List.length_cons]
        push_cast
        have k7 : 4 * (out 0 + (outs.map fun v => v 0).sum) - (Spec.multiElastic bw.spin E w.1 w.2
            + (ws.map fun w => Spec.multiElastic bw.spin E w.1 w.2).sum)
            = ((d : ℝ) + (Spec.factorSum bw.spin w.1.l : ℚ) - (2 * w.1.l + 1)) * (4 * Real.sin w.1.φ ^ 2)
              + (4 * (outs.map fun v => v 0).sum
                - (ws.map fun w => Spec.multiElastic bw.spin E w.1 w.2).sum) := by
          linear_combination k3
        rw [k7]
        refine (abs_add_le _ _).trans ?_
        have k8 : |((d : ℝ) + (Spec.factorSum bw.spin w.1.l : ℚ) - (2 * w.1.l + 1))
            * (4 * Real.sin w.1.φ ^ 2)| ≤ 1 / 10 ^ 15 * 4 := by
          rw [abs_mul, abs_of_nonneg (a := 4 * Real.sin w.1.φ ^ 2) (by positivity)]
          have := Real.sin_sq_le_one w.1.φ
          exact mul_le_mul k6 (by linarith) (by positivity) (by norm_num)
        linarith
  · rw [e1, forall₂_map_sum w2 1 fun w v h => h.2.1]
  · rw [e2, forall₂_map_sum w2 2 fun w v h => h.2.2]

/-! ## C44 -/

/-- The statistical factors of different allowed J values add up to at most those of all of them. -/
theorem present_le {I : ℚ} (hI : Spec.HalfInt I) {l : ℕ} {Js : Finset ℚ}
    (h : ∀ J ∈ Js, Spec.AllowedJ I l J) :
    (∀ J ∈ Js, 0 ≤ neutronFactor I J) ∧ ∑ J ∈ Js, neutronFactor I J ≤ Spec.factorSum I l := by
  have hI0 : (0 : ℚ) < 4 * I + 2 := by
    obtain ⟨n, rfl⟩ := hI
    positivity
  have hpos : ∀ k : ℕ, 0 ≤ neutronFactor I (Spec.lowestJ I l + k) := by
    intro k
    unfold neutronFactor
    refine div_nonneg ?_ hI0.le
    have : 0 ≤ Spec.lowestJ I l := abs_nonneg _
    positivity
  refine ⟨fun J hJ => ?_, ?_⟩
  · obtain ⟨k, -, rfl⟩ := (C43_values I hI l J).mp (h J hJ)
    exact hpos k
  · unfold Spec.factorSum
    rw [← Finset.sum_image (f := neutronFactor I)
      (g := fun k : ℕ => Spec.lowestJ I l + k) (by intro a _ b _ h; simpa using h)]
    refine Finset.sum_le_sum_of_subset_of_nonneg ?_ ?_
    · intro J hJ
      obtain ⟨k, hk, rfl⟩ := (C43_values I hI l J).mp (h J hJ)
      exact Finset.mem_image_of_mem _ hk
    · intro J hJ _
      obtain ⟨k, -, rfl⟩ := Finset.mem_image.mp hJ
      exact hpos k

/-- C44: the elastic cross section of the older multi-level code is not negative if the J values of the
resonances are allowed ones, whatever their widths. -/
theorem C44_nonneg (hI : Spec.HalfInt bw.spin)
    (hJ : ∀ lv ∈ bw.lValues, ∀ r ∈ lv.resonances, Spec.AllowedJ bw.spin lv.l |r.spin|)
    (h : build c sort .multi bw channel scattering = .ok S) (hx : S.evaluate c .multi E = .ok x) :
    0 ≤ x.elastic := by
  obtain ⟨first, rest, h1, hk, ws, outs, w1, w2, e0, -, -⟩ := evaluate_ok h hx
  rw [e0]
  refine mul_nonneg (by positivity) ?_
  clear e0 h1
  generalize bw.lValues = ls at w1 hJ
  induction w2 generalizing ls with
  | nil => simp
  | @cons w out ws outs q1 _ ih =>
    cases w1 with
    | @cons lv _ ls _ l1 l2 =>
      have ih := ih _ l2 fun lv hlv => hJ lv (List.mem_cons_of_mem _ hlv)
      obtain ⟨⟨d, g, k1, k2, k3⟩, -⟩ := q1
      obtain ⟨d', k4, k5, -⟩ := C43_repeated bw.spin hI w.1.l (l1.2.l ▸ l1.1)
      obtain rfl := Except.ok.inj (k1.symm.trans k4)
      obtain rfl := Except.ok.inj (k2.symm.trans (C43_sum bw.spin hI w.1.l))
      simp only [List.map_cons, List.sum_cons]
      rw [mul_add]
      refine add_nonneg ?_ ih
      rw [k3]
      have hall : ∀ J ∈ (w.2.map Assigned.J).toFinset, Spec.AllowedJ bw.spin w.1.l J := by
        intro J hmem
        rw [List.mem_toFinset, List.mem_map] at hmem
        obtain ⟨a, ha, rfl⟩ := hmem
        obtain ⟨r, hr, har⟩ := forall₂_mem l1.2.resonances.flip ha
        have har : IsAssigned _ _ _ r a := har
        rw [har.J, l1.2.l]
        exact hJ lv List.mem_cons_self r hr
      obtain ⟨n1, n2⟩ := present_le hI hall
      have n3 : ((∑ J ∈ (w.2.map Assigned.J).toFinset, neutronFactor bw.spin J : ℚ) : ℝ)
          ≤ (Spec.factorSum bw.spin w.1.l : ℚ) := by exact_mod_cast n2
      push_cast at n3
      have n4 : (0 : ℝ) ≤ (d : ℝ) := by exact_mod_cast k5
      unfold Spec.multiElastic
      have n5 : 0 ≤ ∑ J ∈ (w.2.map Assigned.J).toFinset, (neutronFactor bw.spin J : ℝ)
          * Complex.normSq (1 - Spec.levelCollision w.1.φ E
            ((w.2.filter fun r => r.J = J).map fun r => r.level w.1)) := by
        refine Finset.sum_nonneg fun J hJ => mul_nonneg ?_ (Complex.normSq_nonneg _)
        exact_mod_cast n1 J hJ
      have n6 : 0 ≤ 4 * Real.sin w.1.φ ^ 2 := by positivity
      nlinarith [mul_nonneg (add_nonneg n4 (sub_nonneg.mpr n3)) n6]

theorem forall₂_sum_nonneg {α β : Type} {R : α → β → Prop} {as : List α} {bs : List β} {F : β → ℝ}
    (h : List.Forall₂ R as bs) (hF : ∀ a ∈ as, ∀ b, R a b → 0 ≤ F b) : 0 ≤ (bs.map F).sum := by
  induction h with
  | nil => simp
  | @cons a b as bs h1 _ ih =>
    rw [List.map_cons, List.sum_cons]
    exact add_nonneg (hF a List.mem_cons_self b h1) (ih fun a ha => hF a (List.mem_cons_of_mem _ ha))

/-- C44: capture and fission are not negative if the widths are not. -/
theorem C44_capture_fission (hI : Spec.HalfInt bw.spin) (hn : ∀ lv ∈ bw.lValues, ∀ r ∈ lv.resonances,
      0 ≤ r.neutronWidth ∧ 0 ≤ r.gammaWidth ∧ 0 ≤ r.fissionWidth)
    (h : build c sort level bw channel scattering = .ok S) (hx : S.evaluate c level E = .ok x) :
    0 ≤ x.capture ∧ 0 ≤ x.fission := by
  obtain ⟨first, rest, h1, hk, ws, outs, w1, w2, -, e1, e2⟩ := evaluate_ok h hx
  have hI0 : (0 : ℚ) < 4 * bw.spin + 2 := by
    obtain ⟨n, hn⟩ := hI
    rw [hn]
    positivity
  have key : ∀ lv ∈ bw.lValues, ∀ w : Wave × List Assigned, lv.l ≤ 4 ∧ IsWave
      (neutronWaveNumber c.value first.awri) channel scattering E lv w.1 w.2 →
      0 ≤ Spec.captureSum bw.spin E w.1 w.2 ∧ 0 ≤ Spec.fissionSum bw.spin E w.1 w.2 := by
    intro lv hlv w hw
    have hp : 0 ≤ w.1.p := by
      obtain ⟨a, -, hp, -⟩ := hw.2.own
      rw [hp]
      exact penetration_nonneg _ _
    have terms : ∀ r ∈ lv.resonances, ∀ a : Assigned,
        IsAssigned (neutronWaveNumber c.value first.awri) channel lv r a →
        (0 : ℝ) ≤ (neutronFactor bw.spin a.J : ℝ) ∧ 0 ≤ a.parameters.neutronWidth w.1.p ∧
          0 ≤ a.parameters.denominator E w.1.p w.1.q w.1.s := by
      intro r hr a ha
      refine ⟨?_, ?_, ?_⟩
      · rw [ha.J]
        have : 0 ≤ neutronFactor bw.spin |r.spin| := by
          unfold neutronFactor
          positivity
        exact_mod_cast this
      · obtain ⟨b, -, hb, -⟩ := ha.own
        unfold Spec.Parameters.neutronWidth
        rw [ha.elastic, hb]
        exact div_nonneg (mul_nonneg (hn lv hlv r hr).1 hp) (penetration_nonneg _ _)
      · unfold Spec.Parameters.denominator
        positivity
    constructor
    · refine forall₂_sum_nonneg hw.2.resonances fun r hr a ha => ?_
      obtain ⟨t1, t2, t3⟩ := terms r hr a ha
      refine mul_nonneg t1 (div_nonneg (mul_nonneg t2 ?_) t3)
      rw [ha.capture]
      exact (hn lv hlv r hr).2.1
    · refine forall₂_sum_nonneg hw.2.resonances fun r hr a ha => ?_
      obtain ⟨t1, t2, t3⟩ := terms r hr a ha
      refine mul_nonneg t1 (div_nonneg (mul_nonneg t2 ?_) t3)
      rw [ha.fission]
      exact (hn lv hlv r hr).2.2
  rw [e1, e2, forall₂_map_sum w2 1 fun w v h => h.2.1, forall₂_map_sum w2 2 fun w v h => h.2.2]
  exact ⟨mul_nonneg (by positivity) (forall₂_sum_nonneg w1 fun lv hlv w hw => (key lv hlv w hw).1),
    mul_nonneg (by positivity) (forall₂_sum_nonneg w1 fun lv hlv w hw => (key lv hlv w hw).2)⟩

/-- C44: a group of the older multi-level code has the same values as a spin group of the newer one that is
made of the same resonances: in units of `π/k²` times the statistical factor. -/
theorem C44_agreement {K : Constants} {lib : CoulombLibrary} {g g' : BreitWigner.SpinGroup} {m m' : LegacyMap}
    {xs : List Spec.Parameters} {rs : List Resonance} {I J : ℚ}
    (hnew : List.Forall₂ BreitWigner.Made xs g.resonances)
    (hold : List.Forall₂ (fun x r => makeResonance x.energy x.elastic x.capture x.fission
      (x.competition / x.competitivePenetrability) x.penetrability x.shiftFactor (neutronFactor I J : ℝ) = .ok r)
      xs rs)
    (h : BreitWigner.evaluate K lib E .multiLevel g m = .ok (m', g')) :
    ∃ p q s φ, g.channel.penetrability K lib E = .ok p ∧
      (if g.qx = 0 then q = p else g.channel.penetrability K lib (E - g.qx) = .ok q) ∧
      g.channel.shiftFactor K lib E = .ok s ∧ g.channel.phaseShift K lib E = .ok φ ∧
      ∀ v, groupMulti E p s (Real.sin φ * Real.sin φ) (Real.sin (2 * φ))
          (fun r => r.weightedCompetitiveWidth * q) rs = .ok v →
        ∀ kind i, (kind = LegacyKind.elastic ∧ i = 0 ∨ kind = .capture ∧ i = 1 ∨ kind = .fission ∧ i = 2) →
        (neutronFactor I J : ℝ)
            * ((m' (legacyID g.channel kind)).getD 0 - (m (legacyID g.channel kind)).getD 0)
          = Real.pi / g.channel.waveNumber K E ^ 2 * g.channel.spinFactor * (4 * v i) := by
  obtain ⟨m1, h1, h2⟩ := BreitWigner.C57_multi_level h
  obtain ⟨p, q, s, φ, e1, e2, e3, e4, -, e6, e7, -⟩ := BreitWigner.C57_single_level hnew h1
  obtain ⟨φ', U, f1, ⟨p', q', s', φ'', f2, f3, f4, f5, rfl⟩, f6⟩ := BreitWigner.C32_group h
  obtain rfl := Except.ok.inj (f2.symm.trans e1)
  obtain rfl := Except.ok.inj (f4.symm.trans e3)
  obtain rfl := Except.ok.inj (f5.symm.trans e4)
  obtain rfl := Except.ok.inj (f5.symm.trans f1)
  have hq : q' = q := by
    by_cases hqx : g.qx = 0
    · rw [if_pos hqx] at e2 f3
      rw [e2, f3]
    · rw [if_neg hqx] at e2 f3
      exact Except.ok.inj (f3.symm.trans e2)
  subst hq
  refine ⟨p', q', s', φ'', e1, e2, e3, e4, fun v hv => ?_⟩
  have hm : List.Forall₂ (Made I) (xs.map fun x => ⟨J, x⟩) rs := by
    rw [List.forall₂_map_left_iff]
    refine hold.imp fun x r hx => ?_
    obtain ⟨hP, rfl⟩ := makeResonance_ok hx
    exact ⟨rfl, rfl, rfl, rfl, rfl, hP, rfl, rfl, rfl⟩
  obtain ⟨g0, g1, g2⟩ := group_ok (w := ⟨0, p', s', φ'', q'⟩) (E := E) (J := J) hm
    (by
      intro a ha
      obtain ⟨x, -, rfl⟩ := List.mem_map.mp ha
      rfl) hv
  rw [List.map_map] at g0 g1 g2
  have hlev : (g.resonances.map fun r =>
      (⟨r.elasticAt p', r.totalAt p' q', r.energyPrime s'⟩ : Spec.Level))
      = xs.map ((fun a : Assigned => a.level ⟨0, p', s', φ'', q'⟩) ∘ fun x => ⟨J, x⟩) := by
    clear hold hm hv h h1 g0 g1 g2 e6 e7 f6
    generalize g.resonances = gs at hnew
    induction hnew with
    | nil => rfl
    | cons hx _ ih =>
      obtain ⟨k1, -, -, k4, k5, -⟩ := BreitWigner.made_values hx E p' q' s'
      rw [List.map_cons, List.map_cons, ih, k1, k4, k5]
      rfl
  rw [hlev] at f6
  have ne1 : legacyID g.channel .capture ≠ legacyID g.channel .elastic := fun h =>
    absurd (legacyID_inj h) (by decide)
  have ne2 : legacyID g.channel .fission ≠ legacyID g.channel .elastic := fun h =>
    absurd (legacyID_inj h) (by decide)
  rintro kind i (⟨rfl, rfl⟩ | ⟨rfl, rfl⟩ | ⟨rfl, rfl⟩)
  · rw [g0]
    linear_combination (neutronFactor I J : ℝ) * f6
  · rw [h2 _ ne1, e6, g1, Option.getD_some]
    simp only [Function.comp_def]
    ring
  · rw [h2 _ ne2, e7, g2]
    simp only [Function.comp_def]
    split_ifs with h0
    · rw [h0]
      ring
    · rw [Option.getD_some]
      ring

end Verif.Old
