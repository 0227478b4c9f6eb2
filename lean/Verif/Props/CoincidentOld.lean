import Verif.Props.OldReichMooreAccepted
import Verif.Props.BreitWignerRange

/-!
# Property C113 for the older Reich-Moore code: resonances may be split
-/

namespace Verif.Old.ReichMoore

open Spec Complex

/-- One of `k` equal parts of a resonance: the widths are divided, but for the capture width. -/
noncomputable def part (k : ℕ) (r : Endf.ReichMooreResonance) : Endf.ReichMooreResonance :=
  ⟨r.energy, r.spin, r.neutronWidth / k, r.gammaWidth, r.firstFissionWidth / k, r.secondFissionWidth / k⟩

/-- The parts of all resonances of a list. -/
noncomputable def parts (n : Endf.ReichMooreResonance → ℕ) (rs : List Endf.ReichMooreResonance) :
    List Endf.ReichMooreResonance :=
  rs.flatMap fun r => List.replicate (n r) (part (n r) r)

/-- An evaluation in which each resonance `r` is split into `n r` equal parts. -/
noncomputable def splitEvaluation (n : Endf.ReichMooreResonance → ℕ) (rm : Endf.ReichMoore) :
    Endf.ReichMoore :=
  { rm with lValues := rm.lValues.map fun lv => { lv with resonances := parts n lv.resonances } }

theorem mem_parts {n : Endf.ReichMooreResonance → ℕ} {rs : List Endf.ReichMooreResonance}
    {x : Endf.ReichMooreResonance} (h : x ∈ parts n rs) : ∃ r ∈ rs, x = part (n r) r := by
  obtain ⟨r, hr, hx⟩ := List.mem_flatMap.mp h
  exact ⟨r, hr, List.eq_of_mem_replicate hx⟩

theorem split_physical {n : Endf.ReichMooreResonance → ℕ} {rm : Endf.ReichMoore}
    {channel scattering : ℝ → Outcome ℝ} (h : Physical rm channel scattering) :
    Physical (splitEvaluation n rm) channel scattering := by
  have mem : ∀ lv ∈ (splitEvaluation n rm).lValues, ∃ lv₀ ∈ rm.lValues,
      lv = { lv₀ with resonances := parts n lv₀.resonances } := by
    intro lv hlv
    obtain ⟨lv₀, h0, rfl⟩ := List.mem_map.mp hlv
    exact ⟨lv₀, h0, rfl⟩
  refine ⟨h.spin, ?_, fun lv hlv => ?_, fun lv hlv => ?_, fun lv hlv => ?_, h.channel, h.scattering,
    fun lv hlv r hr => ?_, fun lv hlv r hr => ?_⟩
  · intro h0
    exact h.nonempty (List.map_eq_nil_iff.mp h0)
  · obtain ⟨lv₀, h0, rfl⟩ := mem lv hlv
    exact h.awri lv₀ h0
  · obtain ⟨lv₀, h0, rfl⟩ := mem lv hlv
    exact h.l lv₀ h0
  · obtain ⟨lv₀, h0, rfl⟩ := mem lv hlv
    exact h.apl lv₀ h0
  · obtain ⟨lv₀, h0, rfl⟩ := mem lv hlv
    obtain ⟨r₀, hr₀, rfl⟩ := mem_parts hr
    exact h.energies lv₀ h0 r₀ hr₀
  · obtain ⟨lv₀, h0, rfl⟩ := mem lv hlv
    obtain ⟨r₀, hr₀, rfl⟩ := mem_parts hr
    obtain ⟨w1, w2⟩ := h.widths lv₀ h0 r₀ hr₀
    exact ⟨div_nonneg w1 (Nat.cast_nonneg _), w2⟩

/-- The parameters of a resonance as a function of the resonance. -/
noncomputable def coupledOf (k : ℝ → ℝ) (channel : ℝ → Outcome ℝ) (l : ℕ) (r : Endf.ReichMooreResonance) :
    Coupled :=
  ⟨r.spin, r.energy, r.neutronWidth, r.gammaWidth, r.firstFissionWidth, r.secondFissionWidth,
    penetration l (k r.energy * match channel |r.energy| with | .ok a => a | .error _ => 0)⟩

theorem coupled_eq {k : ℝ → ℝ} {channel : ℝ → Outcome ℝ} {l : ℕ} {rs : List Endf.ReichMooreResonance}
    {as : List Coupled} (h : List.Forall₂ (IsCoupled k channel l) rs as) :
    as = rs.map (coupledOf k channel l) := by
  induction h with
  | nil => rfl
  | @cons r a rs as h1 _ ih =>
    rw [List.map_cons, ← ih]
    congr 1
    obtain ⟨e1, e2, e3, e4, e5, e6, radius, e7, e8⟩ := h1
    cases a
    simp only at e1 e2 e3 e4 e5 e6 e8
    simp only [coupledOf, e7, e1, e2, e3, e4, e5, e6, e8]

theorem fissionAmplitude_div {k : ℕ} (hk : k ≠ 0) (w : ℝ) :
    fissionAmplitude (w / k) = fissionAmplitude w / Real.sqrt k := by
  have h0 : (0 : ℝ) < k := by exact_mod_cast Nat.pos_of_ne_zero hk
  unfold fissionAmplitude
  by_cases hw : w < 0
  · rw [if_pos hw, if_pos (div_neg_of_neg_of_pos hw h0), ← neg_div, Real.sqrt_div' _ h0.le, neg_div]
  · rw [if_neg hw, if_neg (not_lt.mpr (div_nonneg (not_lt.mp hw) h0.le)), Real.sqrt_div' _ h0.le]

theorem amplitude_part {k : ℝ → ℝ} {channel : ℝ → Outcome ℝ} {l m : ℕ} (hm : m ≠ 0) (p : ℝ)
    (r : Endf.ReichMooreResonance) (i : Fin 3) :
    ((coupledOf k channel l (part m r)).level p).amplitude i
      = ((coupledOf k channel l r).level p).amplitude i / Real.sqrt m := by
  have h0 : (0 : ℝ) < m := by exact_mod_cast Nat.pos_of_ne_zero hm
  fin_cases i
  · show Real.sqrt (r.neutronWidth / m * p / _) = Real.sqrt (r.neutronWidth * p / _) / _
    rw [← Real.sqrt_div' _ h0.le]
    congr 1
    show _ / penetration l _ = _ / penetration l _ / _
    rw [div_mul_eq_mul_div, div_right_comm]
    rfl
  · exact fissionAmplitude_div hm _
  · exact fissionAmplitude_div hm _

theorem k_parts {n : Endf.ReichMooreResonance → ℕ} {rs : List Endf.ReichMooreResonance}
    (hn : ∀ r ∈ rs, n r ≠ 0) (k : ℝ → ℝ) (channel : ℝ → Outcome ℝ) (l : ℕ) (p E : ℝ) (J : ℚ) :
    reichMooreK E ((((parts n rs).map (coupledOf k channel l)).filter fun a => a.J = J).map (Coupled.level p))
      = reichMooreK E (((rs.map (coupledOf k channel l)).filter fun a => a.J = J).map (Coupled.level p)) := by
  ext i j
  simp only [reichMooreK, Matrix.of_apply]
  induction rs with
  | nil => rfl
  | cons r rs ih =>
    have h1 : parts n (r :: rs) = List.replicate (n r) (part (n r) r) ++ parts n rs := rfl
    rw [h1, List.map_append, List.filter_append, List.map_append, List.map_append, List.sum_append,
      ih fun x hx => hn x (List.mem_cons_of_mem _ hx), List.map_cons, List.filter_cons, List.map_replicate,
      List.filter_replicate]
    have hJ : (coupledOf k channel l (part (n r) r)).J = (coupledOf k channel l r).J := rfl
    rw [hJ]
    have hm := hn r List.mem_cons_self
    by_cases h2 : (coupledOf k channel l r).J = J
    · rw [if_pos (by simpa using h2), if_pos (by simpa using h2), List.map_replicate, List.map_replicate,
        List.sum_replicate, List.map_cons, List.map_cons, List.sum_cons, nsmul_eq_mul, amplitude_part hm,
        amplitude_part hm]
      congr 1
      have h0 : (0 : ℝ) < n r := by exact_mod_cast Nat.pos_of_ne_zero hm
      have h3 : (((Real.sqrt (n r) : ℝ) : ℂ)) * (Real.sqrt (n r) : ℝ) = (n r : ℂ) := by
        rw [← ofReal_mul, Real.mul_self_sqrt h0.le, ofReal_natCast]
      have h4 : ((Real.sqrt (n r) : ℝ) : ℂ) ≠ 0 := ofReal_ne_zero.mpr (Real.sqrt_pos.mpr h0).ne'
      have h5 : (n r : ℂ) ≠ 0 := Nat.cast_ne_zero.mpr hm
      show (n r : ℂ) * (I / 2 * _ / (((coupledOf k channel l r).level p).energy - E
        - I * ((coupledOf k channel l r).level p).capture / 2)) = _
      rw [← mul_div_assoc]
      congr 1
      rw [ofReal_div, ofReal_div, div_mul_div_comm, h3]
      field_simp
    · rw [if_neg (by simpa using h2), if_neg (by simpa using h2)]
      simp

theorem spins_parts {n : Endf.ReichMooreResonance → ℕ} {rs : List Endf.ReichMooreResonance}
    (hn : ∀ r ∈ rs, n r ≠ 0) (k : ℝ → ℝ) (channel : ℝ → Outcome ℝ) (l : ℕ) :
    (((parts n rs).map (coupledOf k channel l)).map Coupled.J).toFinset
      = ((rs.map (coupledOf k channel l)).map Coupled.J).toFinset := by
  ext J
  simp only [List.mem_toFinset, List.map_map, List.mem_map, Function.comp_apply]
  constructor
  · rintro ⟨x, hx, rfl⟩
    obtain ⟨r, hr, rfl⟩ := mem_parts hx
    exact ⟨r, hr, rfl⟩
  · rintro ⟨r, hr, rfl⟩
    exact ⟨part (n r) r, List.mem_flatMap.mpr ⟨r, hr, List.mem_replicate.mpr ⟨hn r hr, rfl⟩⟩, rfl⟩

/-- Two partial waves with the same penetrability and phase shift. -/
theorem wave_split {n : Endf.ReichMooreResonance → ℕ} {k : ℝ → ℝ} {channel scattering : ℝ → Outcome ℝ} {E : ℝ}
    {lv : Endf.ReichMooreLValue} {w w' : CoupledWave} {as as' : List Coupled}
    (hn : ∀ r ∈ lv.resonances, n r ≠ 0) (h : IsCoupledWave k channel scattering E lv w as)
    (h' : IsCoupledWave k channel scattering E { lv with resonances := parts n lv.resonances } w' as') (I : ℚ) :
    coupledElastic I E w' as' = coupledElastic I E w as ∧ coupledCapture I E w' as' = coupledCapture I E w as ∧
      coupledFission I E w' as' = coupledFission I E w as := by
  obtain rfl := coupled_eq h.resonances
  obtain rfl := coupled_eq h'.resonances
  obtain ⟨a, ha, hp⟩ := h.own
  obtain ⟨a', ha', hp'⟩ := h'.own
  obtain rfl : a = a' := Except.ok.inj (ha.symm.trans ha')
  obtain ⟨b, hb, hφ⟩ := h.phase
  obtain ⟨b', hb', hφ'⟩ := h'.phase
  obtain rfl : b = b' := Except.ok.inj (hb.symm.trans hb')
  have ep : w'.p = w.p := hp'.trans hp.symm
  have eφ := hφ'.trans hφ.symm
  have el : w'.l = w.l := h'.l.trans h.l.symm
  have hsin := Endf.sin_sq_eq_of_exp eφ
  have hU : ∀ J, collisionOf E w' ((parts n lv.resonances).map (coupledOf k channel lv.l)) J
      = collisionOf E w (lv.resonances.map (coupledOf k channel lv.l)) J := by
    intro J
    unfold collisionOf reichMooreCollision
    rw [ep, k_parts hn, Complex.exp_neg, Complex.exp_neg, eφ]
  unfold coupledElastic coupledCapture coupledFission
  simp only [hU, spins_parts hn, el, hsin, and_self]

variable {c : WaveConstant} {sort : Sorting Resonance.flaggedStatisticalFactor} {tag : Tag}
  {rm : Endf.ReichMoore} {channel scattering : ℝ → Outcome ℝ}

/-- C113 for the older Reich-Moore code: an evaluation that makes sense physically and the one in which each
resonance is split into equal parts at the same energy, with the same capture width, are both accepted and
have the same cross sections. -/
theorem C113_old {n : Endf.ReichMooreResonance → ℕ} (hn : ∀ lv ∈ rm.lValues, ∀ r ∈ lv.resonances, n r ≠ 0)
    (h : Physical rm channel scattering) :
    ∃ S S', build c sort rm tag channel scattering tag.channel? = .ok S ∧
      build c sort (splitEvaluation n rm) tag channel scattering tag.channel? = .ok S' ∧
      ∀ E, 0 < E → ∃ x x', S.evaluate c E = .ok x ∧ S'.evaluate c E = .ok x' ∧ x'.elastic = x.elastic ∧
        x'.capture = x.capture ∧ x'.fission = x.fission := by
  have hs := split_physical (n := n) h
  obtain ⟨S, h1, h2⟩ := C59_exists (c := c) (sort := sort) (tag := tag) (use := tag.channel?) h
  obtain ⟨S', h3, h4⟩ := C59_exists (c := c) (sort := sort) (tag := tag) (use := tag.channel?) hs
  refine ⟨S, S', h1, h3, fun E hE => ?_⟩
  obtain ⟨x, hx⟩ := h2 E hE
  obtain ⟨x', hx'⟩ := h4 E hE
  refine ⟨x, x', hx, hx', ?_⟩
  have hI : 0 < 4 * rm.spin + 2 := by
    obtain ⟨m, hm⟩ := h.spin
    rw [hm]
    positivity
  obtain ⟨first, rest, e, ws, f, -, x1, x2, x3⟩ := C59 hI (fun lv hlv r hr => (h.widths lv hlv r hr).2.le) h1 hx
  obtain ⟨first', rest', e', ws', f', -, y1, y2, y3⟩ :=
    C59 (rm := splitEvaluation n rm) hI (fun lv hlv r hr => (hs.widths lv hlv r hr).2.le) h3 hx'
  have ha : first'.awri = first.awri := by
    have e2 : (splitEvaluation n rm).lValues
        = (rm.lValues.map fun lv => { lv with resonances := parts n lv.resonances }) := rfl
    rw [e2, e, List.map_cons] at e'
    rw [← (List.cons.inj e').1]
  rw [ha] at f' y1 y2 y3
  have key : ∀ (g : CoupledWave × List Coupled → ℝ),
      (∀ lv ∈ rm.lValues, ∀ w w', IsCoupledWave (neutronWaveNumber c.value first.awri)
        (lRadius tag.channel? lv channel) (lRadius tag.scattering? lv scattering) E lv w.1 w.2 →
        IsCoupledWave (neutronWaveNumber c.value first.awri) (lRadius tag.channel? lv channel)
          (lRadius tag.scattering? lv scattering) E { lv with resonances := parts n lv.resonances } w'.1 w'.2 →
        g w' = g w) → (ws'.map g).sum = (ws.map g).sum := by
    intro g hg
    have f2 : List.Forall₂ (fun lv w' => lv.l ≤ 4 ∧ IsCoupledWave (neutronWaveNumber c.value first.awri)
        (lRadius tag.channel? lv channel) (lRadius tag.scattering? lv scattering) E
        { lv with resonances := parts n lv.resonances } w'.1 w'.2) rm.lValues ws' :=
      List.forall₂_map_left_iff.mp f'
    clear f' x1 x2 x3 y1 y2 y3 e e' hn h hs h1 h3 hI
    generalize rm.lValues = lvs at f f2 hg
    induction f generalizing ws' with
    | nil =>
      cases f2
      rfl
    | cons p1 _ ih =>
      cases f2 with
      | cons q1 q2 =>
        rw [List.map_cons, List.map_cons, List.sum_cons, List.sum_cons,
          ih _ q2 fun lv hlv => hg lv (List.mem_cons_of_mem _ hlv),
          hg _ List.mem_cons_self _ _ p1.2 q1.2]
  rw [x1, x2, x3, y1, y2, y3]
  refine ⟨?_, ?_, ?_⟩
  · rw [key]
    · rfl
    · exact fun lv hlv w w' p q => (wave_split (hn lv hlv) p q _).1
  · rw [key]
    · rfl
    · exact fun lv hlv w w' p q => (wave_split (hn lv hlv) p q _).2.1
  · rw [key]
    · rfl
    · exact fun lv hlv w w' p q => (wave_split (hn lv hlv) p q _).2.2

/-- The evaluation of the example with each resonance in three parts, at 20 eV. -/
example (c : WaveConstant) (sort : Sorting Resonance.flaggedStatisticalFactor) : ∃ S S' x x',
    build c sort exampleEvaluation .both (constantRadius 0.6) (constantRadius 0.6) true = .ok S ∧
    build c sort (splitEvaluation (fun _ => 3) exampleEvaluation) .both (constantRadius 0.6)
      (constantRadius 0.6) true = .ok S' ∧
    S.evaluate c 20 = .ok x ∧ S'.evaluate c 20 = .ok x' ∧ x'.elastic = x.elastic ∧ x'.capture = x.capture ∧
    x'.fission = x.fission := by
  obtain ⟨S, S', h1, h2, h3⟩ := C113_old (c := c) (sort := sort) (tag := .both) (n := fun _ => 3)
    (by norm_num) example_physical
  obtain ⟨x, x', h⟩ := h3 20 (by norm_num)
  exact ⟨S, S', x, x', h1, h2, h⟩

end Verif.Old.ReichMoore
