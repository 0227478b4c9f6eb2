import Verif.Props.PotentialScattering
import Verif.Props.OldReichMooreAccepted

/-!
# C104 for the older code
-/

namespace Verif.Old

open Spec Complex

/-- Hard-sphere scattering in the partial waves of a list, `π/k² ∑ (2l+1) |1 - exp(2i φ_l)|²`, each with its own
radius. -/
noncomputable def listedScattering (k : ℝ) (waves : List (ℕ × ℝ)) : ℝ :=
  Real.pi / k ^ 2 * (waves.map fun w => (2 * (w.1 : ℝ) + 1) * normSq (1 - hardSpherePhase (k * w.2) w.1)).sum

variable {c : WaveConstant} {channel scattering : ℝ → Outcome ℝ} {E : ℝ} {x : CrossSection}

theorem waves_sum {α β : Type} {Q : α → β → Prop} {as : List α} {bs : List β} {f : α → ℝ} {g : β → ℝ}
    (h : List.Forall₂ Q as bs) (hf : ∀ a ∈ as, ∀ b, Q a b → g b = f a) :
    (bs.map g).sum = (as.map f).sum := by
  induction h with
  | nil => rfl
  | cons h1 _ ih =>
    rw [List.map_cons, List.map_cons, List.sum_cons, List.sum_cons, hf _ List.mem_cons_self _ h1,
      ih fun a ha => hf a (List.mem_cons_of_mem _ ha)]

/-- C104, older Breit-Wigner code: if no resonance has a neutron width, nothing is absorbed, and elastic
scattering is that of a hard sphere in the partial waves that are listed, for the multi-level formalism up to
the rounding of a difference that the code replaces by zero. -/
theorem C104_old_breit_wigner {sort : Sorting Resonance.statisticalFactor} {level : Level}
    {bw : Endf.BreitWigner} {S : System} (hI : HalfInt bw.spin)
    (hz : ∀ lv ∈ bw.lValues, ∀ r ∈ lv.resonances, r.neutronWidth = 0) {radius : ℝ}
    (hr : scattering E = .ok radius) (h : build c sort level bw channel scattering = .ok S)
    (hx : S.evaluate c level E = .ok x) :
    ∃ first rest, bw.lValues = first :: rest ∧ neutronWaveNumber c.value first.awri E ≠ 0 ∧
      |x.elastic - listedScattering (neutronWaveNumber c.value first.awri E)
          (bw.lValues.map fun lv => (lv.l, radius))|
        ≤ (match level with
          | .single => 0
          | .multi => Real.pi / neutronWaveNumber c.value first.awri E ^ 2
            * (4 * bw.lValues.length / 10 ^ 15)) ∧
      x.capture = 0 ∧ x.fission = 0 := by
  have key : ∀ {k : ℝ → ℝ} {lv : Endf.BreitWignerLValue} {w : Wave × List Assigned}, lv ∈ bw.lValues →
      IsWave k channel scattering E lv w.1 w.2 →
      singleElastic bw.spin E w.1 w.2 = (2 * (lv.l : ℝ) + 1) * normSq (1 - hardSpherePhase (k E * radius) lv.l) ∧
      multiElastic bw.spin E w.1 w.2 = (2 * (lv.l : ℝ) + 1) * normSq (1 - hardSpherePhase (k E * radius) lv.l) ∧
      captureSum bw.spin E w.1 w.2 = 0 ∧ fissionSum bw.spin E w.1 w.2 = 0 := by
    intro k lv w hlv hw
    have h0 : ∀ a ∈ w.2, a.parameters.elastic = 0 := by
      intro a ha
      obtain ⟨r, hr, hra⟩ := Endf.forall₂_mem_right hw.resonances ha
      rw [hra.elastic]
      exact hz lv hlv r hr
    obtain ⟨p1, p2, p3⟩ := Endf.wave_potential (multi := false) (spin := bw.spin) (E := E) (w := w.1) h0
    obtain ⟨q1, -, -⟩ := Endf.wave_potential (multi := true) (spin := bw.spin) (E := E) (w := w.1) h0
    obtain ⟨rad, r1, r2⟩ := hw.phase
    obtain rfl := Except.ok.inj (hr.symm.trans r1)
    unfold resonantElastic at p1 q1
    rw [if_neg Bool.false_ne_true] at p1
    rw [if_pos rfl] at q1
    rw [← Endf.phase_sine r2, ← hw.l]
    exact ⟨by linarith, by linarith, p2, p3⟩
  cases level with
  | single =>
    obtain ⟨first, rest, e, ws, f, k0, x1, x2, x3⟩ := C58_single h hx
    refine ⟨first, rest, e, k0, ?_, ?_, ?_⟩
    · rw [x1, waves_sum f fun lv hlv w hw => (key hlv hw.2).1, listedScattering, List.map_map]
      simp [Function.comp_def]
    · rw [x2, waves_sum (f := fun _ => 0) f fun lv hlv w hw => (key hlv hw.2).2.2.1]
      simp
    · rw [x3, waves_sum (f := fun _ => 0) f fun lv hlv w hw => (key hlv hw.2).2.2.2]
      simp
  | multi =>
    obtain ⟨first, rest, e, ws, f, k0, x1, x2, x3⟩ := C58_multi hI h hx
    refine ⟨first, rest, e, k0, ?_, ?_, ?_⟩
    · rw [waves_sum f fun lv hlv w hw => (key hlv hw.2).2.1, ← f.length_eq] at x1
      rw [listedScattering, List.map_map]
      exact x1
    · rw [x2, waves_sum (f := fun _ => 0) f fun lv hlv w hw => (key hlv hw.2).2.2.1]
      simp
    · rw [x3, waves_sum (f := fun _ => 0) f fun lv hlv w hw => (key hlv hw.2).2.2.2]
      simp

/-- C104, older Reich-Moore code: if no resonance has a neutron width, nothing is absorbed, and elastic
scattering is that of a hard sphere in the partial waves that are listed, each with its radius. -/
theorem ReichMoore.C104_old_reich_moore {sort : Sorting ReichMoore.Resonance.flaggedStatisticalFactor}
    {rm : Endf.ReichMoore} {tag : ReichMoore.Tag} {S : ReichMoore.System} (hI : 0 < 4 * rm.spin + 2)
    (hz : ∀ lv ∈ rm.lValues, ∀ r ∈ lv.resonances, r.neutronWidth = 0 ∧ 0 ≤ r.gammaWidth)
    {radius : Endf.ReichMooreLValue → ℝ}
    (hr : ∀ lv ∈ rm.lValues, lRadius tag.scattering? lv scattering E = .ok (radius lv))
    (h : ReichMoore.build c sort rm tag channel scattering tag.channel? = .ok S)
    (hx : S.evaluate c E = .ok x) :
    ∃ first rest, rm.lValues = first :: rest ∧ neutronWaveNumber c.value first.awri E ≠ 0 ∧
      x.elastic = listedScattering (neutronWaveNumber c.value first.awri E)
        (rm.lValues.map fun lv => (lv.l, radius lv)) ∧
      x.capture = 0 ∧ x.fission = 0 := by
  obtain ⟨first, rest, e, ws, f, k0, x1, x2, x3⟩ := ReichMoore.C59 hI (fun lv hlv r hr => (hz lv hlv r hr).2) h hx
  have key : ∀ lv ∈ rm.lValues, ∀ w : CoupledWave × List Coupled,
      IsCoupledWave (neutronWaveNumber c.value first.awri) (lRadius tag.channel? lv channel)
        (lRadius tag.scattering? lv scattering) E lv w.1 w.2 →
      coupledElastic rm.spin E w.1 w.2 = (2 * (lv.l : ℝ) + 1)
        * normSq (1 - hardSpherePhase (neutronWaveNumber c.value first.awri E * radius lv) lv.l) ∧
      coupledCapture rm.spin E w.1 w.2 = 0 ∧ coupledFission rm.spin E w.1 w.2 = 0 := by
    intro lv hlv w hw
    have hU : ∀ J (j : Fin 3), collisionOf E w.1 w.2 J 0 j = if j = 0 then exp (-(2 * I * w.1.φ)) else 0 := by
      intro J j
      refine Endf.collision_uncoupled (fun r hr => ?_) (fun r hr => ?_) j
      all_goals
        obtain ⟨a, ha, rfl⟩ := List.mem_map.mp hr
        obtain ⟨x, hx, hxa⟩ := Endf.forall₂_mem_right hw.resonances (List.mem_filter.mp ha).1
      · change 0 ≤ a.capture
        rw [hxa.capture]
        exact (hz lv hlv x hx).2
      · simp [Coupled.level, hxa.elastic, (hz lv hlv x hx).1]
    obtain ⟨rad, r1, r2⟩ := hw.phase
    obtain rfl := Except.ok.inj ((hr lv hlv).symm.trans r1)
    refine ⟨?_, ?_, ?_⟩
    · unfold coupledElastic
      simp only [hU, if_true, Endf.normSq_one_sub_exp]
      rw [← Finset.sum_mul, Endf.phase_sine r2, hw.l]
      ring
    · unfold coupledCapture
      refine Finset.sum_eq_zero fun J _ => ?_
      simp only [hU, Fin.sum_univ_three]
      simp [Endf.normSq_exp_neg]
    · unfold coupledFission
      refine Finset.sum_eq_zero fun J _ => ?_
      simp [hU]
  refine ⟨first, rest, e, k0, ?_, ?_, ?_⟩
  · rw [x1, waves_sum f fun lv hlv w hw => (key lv hlv w hw.2).1, listedScattering, List.map_map]
    rfl
  · rw [x2, waves_sum (f := fun _ => 0) f fun lv hlv w hw => (key lv hlv w hw.2).2.1]
    simp
  · rw [x3, waves_sum (f := fun _ => 0) f fun lv hlv w hw => (key lv hlv w hw.2).2.2]
    simp

/-! ## Examples -/

namespace PotentialExample

/-- A resonance without neutron width for l = 1, and l = 0 without resonances. -/
noncomputable def breitWigner : Endf.BreitWigner :=
  ⟨1 / 2, 0.6, [⟨0, 100, 0, 0, []⟩, ⟨1, 100, 0, 0, [⟨20, 2, 0, 0.1, 0.2, 0⟩]⟩]⟩

theorem breitWigner_physical : Physical breitWigner (constantRadius 0.6) (constantRadius 0.6) where
  spin := ⟨1, by norm_num [breitWigner]⟩
  nonempty := by simp [breitWigner]
  awri := by simp [breitWigner]
  l := by simp [breitWigner]
  channel := fun _ => ⟨0.6, by norm_num, rfl⟩
  scattering := fun _ => ⟨0.6, rfl⟩
  energies := by norm_num [breitWigner]
  widths := by norm_num [breitWigner]

/-- At the energy of the resonance there is only the scattering by the hard sphere. -/
example (c : WaveConstant) (sort : Sorting Resonance.statisticalFactor) : ∃ S x,
    build c sort .single breitWigner (constantRadius 0.6) (constantRadius 0.6) = .ok S ∧
    S.evaluate c .single 20 = .ok x ∧
    x.elastic = listedScattering (neutronWaveNumber c.value 100 20) [(0, 0.6), (1, 0.6)] ∧ x.capture = 0 := by
  obtain ⟨S, h1, h2⟩ := C58_exists (c := c) (sort := sort) (level := .single) breitWigner_physical
  obtain ⟨x, hx⟩ := h2 20 (by norm_num)
  obtain ⟨first, rest, e, -, x1, x2, -⟩ := C104_old_breit_wigner (scattering := constantRadius 0.6)
    (E := 20) (radius := 0.6) breitWigner_physical.spin
    (by norm_num [breitWigner]) rfl h1 hx
  obtain ⟨rfl, rfl⟩ := List.cons.inj e
  exact ⟨S, x, h1, hx, sub_eq_zero.mp (abs_nonpos_iff.mp x1), x2⟩

/-- The same in the Reich-Moore format, with another radius for l = 1. -/
noncomputable def reichMoore : Endf.ReichMoore :=
  ⟨1 / 2, 0.6, 2, [⟨0, 100, 0, []⟩, ⟨1, 100, 0.7, [⟨20, 2, 0, 0.1, 0.2, -0.3⟩]⟩]⟩

theorem reichMoore_physical : ReichMoore.Physical reichMoore (constantRadius 0.6) (constantRadius 0.6) where
  spin := ⟨1, by norm_num [reichMoore]⟩
  nonempty := by simp [reichMoore]
  awri := by simp [reichMoore]
  l := by simp [reichMoore]
  apl := by norm_num [reichMoore]
  channel := fun _ _ => ⟨0.6, by norm_num, rfl⟩
  scattering := fun _ _ => ⟨0.6, rfl⟩
  energies := by norm_num [reichMoore]
  widths := by norm_num [reichMoore]

example (c : WaveConstant) (sort : Sorting ReichMoore.Resonance.flaggedStatisticalFactor) : ∃ S x,
    ReichMoore.build c sort reichMoore .both (constantRadius 0.6) (constantRadius 0.6) true = .ok S ∧
    S.evaluate c 20 = .ok x ∧
    x.elastic = listedScattering (neutronWaveNumber c.value 100 20) [(0, 0.6), (1, 0.7)] ∧ x.capture = 0 ∧
    x.fission = 0 := by
  obtain ⟨S, h1, h2⟩ := ReichMoore.C59_exists (c := c) (sort := sort) (tag := .both) (use := true)
    reichMoore_physical
  obtain ⟨x, hx⟩ := h2 20 (by norm_num)
  obtain ⟨first, rest, e, -, x1, x2, x3⟩ := ReichMoore.C104_old_reich_moore (tag := .both)
    (radius := fun lv => if lv.apl = 0 then 0.6 else lv.apl) (by norm_num [reichMoore])
    (by norm_num [reichMoore]) (by
      intro lv hlv
      simp only [reichMoore, List.mem_cons, List.not_mem_nil, or_false] at hlv
      rcases hlv with rfl | rfl <;> norm_num [lRadius, constantRadius, ReichMoore.Tag.scattering?]) h1 hx
  obtain ⟨rfl, rfl⟩ := List.cons.inj e
  refine ⟨S, x, h1, hx, ?_, x2, x3⟩
  rw [x1]
  norm_num [reichMoore]

end PotentialExample

end Verif.Old
