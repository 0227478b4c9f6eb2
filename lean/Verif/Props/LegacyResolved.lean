import Verif.Lemmas.LegacySystem
import Verif.Props.QuantumNumbers
import Verif.Props.HardSphere
import Verif.Props.SpinGroup
import Mathlib.Analysis.Real.Pi.Bounds

/-!
# Properties C32 to C36, C23, C40 and C54 for Breit-Wigner resonances
-/

namespace Verif

open Complex

namespace BreitWigner

/-- The collision function of one spin group at energy `E`: the neutron and total widths and the
resonance energies are those that the resonances report for the penetrabilities and the shift factor
of the channel at `E`. -/
def IsCollision (K : Constants) (lib : CoulombLibrary) (E : ℝ) (g : SpinGroup) (U : ℂ) : Prop :=
  ∃ p q s φ, g.channel.penetrability K lib E = .ok p ∧
    (if g.qx = 0 then q = p else g.channel.penetrability K lib (E - g.qx) = .ok q) ∧
    g.channel.shiftFactor K lib E = .ok s ∧ g.channel.phaseShift K lib E = .ok φ ∧
    U = Spec.levelCollision φ E (g.resonances.map fun r =>
      ⟨r.elasticAt p, r.totalAt p q, r.energyPrime s⟩)

theorem Values.isCollision {K : Constants} {lib : CoulombLibrary} {E p q s φ : ℝ} {g : SpinGroup}
    (h : Values K lib g E p q s φ) : IsCollision K lib E g (Spec.levelCollision φ E
      (g.resonances.map fun r => ⟨r.elasticAt p, r.totalAt p q, r.energyPrime s⟩)) := by
  refine ⟨p, q, s, φ, h.penetrability, ?_, h.shiftFactor, h.phaseShift, rfl⟩
  have := h.competition
  unfold SpinGroup.competitionPenetrability at this
  by_cases hq : g.qx = 0
  · rw [if_pos hq]
    rw [if_neg (by simpa using hq)] at this
    simpa using this.symm
  · rw [if_neg hq]
    rw [if_pos hq] at this
    exact this

theorem slbwMap_getD (K : Constants) (g : SpinGroup) (E : ℝ) (c : Data ℝ) (m : LegacyMap)
    (id : LegacyID) : ((slbwMap K g E c m) id).getD 0 = (m id).getD 0
      + (if id = legacyID g.channel .elastic then factor K g E * c.elastic else 0)
      + (if id = legacyID g.channel .capture then factor K g E * c.capture else 0)
      + (if id = legacyID g.channel .fission then factor K g E * c.fission else 0) := by
  unfold slbwMap
  by_cases h : c.fission = 0
  · simp [h, LegacyMap.add_getD]
  · simp [h, LegacyMap.add_getD]

section

variable {K : Constants} {lib : CoulombLibrary} {E : ℝ}

/-! ## C32 -/

/-- C32, one spin group: the elastic contribution of a multi-level Breit-Wigner group together with the
hard-sphere term of its own statistical weight is `π/k² g |1 - U|²`. -/
theorem C32_group {g g' : SpinGroup} {m m' : LegacyMap}
    (h : g.evaluateMLBW K lib E m = .ok (m', g')) :
    ∃ φ U, g.channel.phaseShift K lib E = .ok φ ∧ IsCollision K lib E g U ∧
      (m' (legacyID g.channel .elastic)).getD 0 - (m (legacyID g.channel .elastic)).getD 0
          + Real.pi / g.channel.waveNumber K E ^ 2 * g.channel.spinFactor * (4 * Real.sin φ ^ 2)
        = Real.pi / g.channel.waveNumber K E ^ 2 * g.channel.spinFactor * normSq (1 - U) := by
  obtain ⟨p, q, s, φ, hV, rfl, -⟩ := evaluateMLBW_ok h
  refine ⟨φ, _, hV.phaseShift, hV.isCollision, ?_⟩
  rw [← mlbw_components g E p q s φ hV.denominator, LegacyMap.add_getD, slbwMap_getD]
  have h1 : legacyID g.channel .elastic ≠ legacyID g.channel .capture := fun h =>
    absurd (legacyID_inj h) (by decide)
  have h2 : legacyID g.channel .elastic ≠ legacyID g.channel .fission := fun h =>
    absurd (legacyID_inj h) (by decide)
  simp only [if_true, h1, h2, if_false, factor]
  ring

/-- The two channels have the same identifiers, wave number and phase shift radius and are neutron
channels: what distinguishes them for the phase shift is `l`. -/
def SamePotential (K : Constants) (E : ℝ) (c d : Channel) : Prop :=
  c.type = .neutron ∧ d.type = .neutron ∧ c.pair.particle.id = d.pair.particle.id ∧
    c.pair.residual.id = d.pair.residual.id ∧ c.waveNumber K E = d.waveNumber K E ∧
    c.radii.phaseShift E = d.radii.phaseShift E

theorem SamePotential.legacyID {c d : Channel} (h : SamePotential K E c d) (kind : LegacyKind) :
    legacyID c kind = legacyID d kind := by
  simp [Verif.legacyID, h.2.2.1, h.2.2.2.1]

theorem phaseShift_neutron {c : Channel} (hc : c.type = .neutron) {radius : ℝ}
    (hr : c.radii.phaseShift E = .ok radius) : c.phaseShift K lib E
      = calculatePhaseShift lib .neutron c.numbers.l (c.waveNumber K E * radius) 0 := by
  unfold Channel.phaseShift Channel.eta
  rw [if_neg (by rw [hc]; decide), hc]
  simp only [bind, Except.bind]
  rw [hr]

/-- The total statistical weight of the groups with orbital angular momentum `l`. -/
def weight (groups : List SpinGroup) (l : ℕ) : ℚ :=
  ((groups.filter fun g => g.channel.numbers.l = l).map fun g => g.channel.spinFactor).sum

theorem forall₂_sum {α : Type} {R : α → (LegacyID → ℝ) → Prop} {P : α → ℂ → Prop}
    {gs : List α} {fs : List (LegacyID → ℝ)} {id : LegacyID} {a b : α → ℝ} {F : ℝ}
    (h : List.Forall₂ R gs fs)
    (hR : ∀ g ∈ gs, ∀ f, R g f → ∃ U, P g U ∧ f id = F * (a g * normSq (1 - U) - b g)) :
    ∃ Us, List.Forall₂ P gs Us ∧ (fs.map fun f => f id).sum
      = F * ((List.zipWith (fun g U => a g * normSq (1 - U)) gs Us).sum - (gs.map b).sum) := by
  induction h with
  | nil => exact ⟨[], .nil, by simp⟩
  | @cons g f gs fs h1 h2 ih =>
    obtain ⟨U, hU, hf⟩ := hR g List.mem_cons_self f h1
    obtain ⟨Us, hUs, h3⟩ := ih fun g hg => hR g (List.mem_cons_of_mem _ hg)
    refine ⟨U :: Us, .cons hU hUs, ?_⟩
    rw [List.map_cons, List.sum_cons, h3, hf, List.zipWith_cons_cons, List.sum_cons, List.map_cons,
      List.sum_cons]
    ring

/-- C32: the elastic cross section of a multi-level Breit-Wigner system whose groups share wave number
and phase shift radius is `π/k²` times the sum of `g |1 - U|²` over the groups and of the hard-sphere
term `4 sin² φ_l` with the weight that the groups leave over. -/
theorem C32_system {s s' : LegacySystem SpinGroup} {m m' : LegacyMap} {first : SpinGroup}
    {rest : List SpinGroup} (hs : s.groups = first :: rest)
    (hl : ∀ g ∈ s.groups, g.channel.numbers.l ≤ s.lmax)
    (hsame : ∀ g ∈ s.groups, SamePotential K E first.channel g.channel)
    (h : s.evaluate K lib SpinGroup.channel (fun g => g.evaluateMLBW K lib E) E m = .ok (m', s')) :
    ∃ (U : List ℂ) (φ : ℕ → ℝ) (radius : ℝ), List.Forall₂ (IsCollision K lib E) s.groups U ∧
      first.channel.radii.phaseShift E = .ok radius ∧
      (∀ l ≤ s.lmax, calculatePhaseShift lib .neutron l (first.channel.waveNumber K E * radius) 0
        = .ok (φ l)) ∧
      (m' (legacyID first.channel .elastic)).getD 0 = (m (legacyID first.channel .elastic)).getD 0
        + Real.pi / first.channel.waveNumber K E ^ 2
          * ((List.zipWith (fun g u => (g.channel.spinFactor : ℝ) * normSq (1 - u)) s.groups U).sum
            + ∑ l ∈ Finset.range (s.lmax + 1),
                ((2 * l + 1 - weight s.groups l : ℚ) : ℝ) * (4 * Real.sin (φ l) ^ 2)) := by
  obtain ⟨m1, first', rest', radius, v, h1, -, hr, hk, hv, rfl⟩ := LegacySystem.evaluate_ok h
  obtain ⟨φ, hφ, rfl⟩ := LegacySystem.potential_ok hv
  have hsum := LegacySystem.evaluateGroups_sum (channel := SpinGroup.channel)
    (R := fun g f => ∃ φ U, g.channel.phaseShift K lib E = .ok φ ∧ IsCollision K lib E g U ∧
      f (legacyID first.channel .elastic)
        = Real.pi / first.channel.waveNumber K E ^ 2
          * ((g.channel.spinFactor : ℝ) * normSq (1 - U) - g.channel.spinFactor * (4 * Real.sin φ ^ 2)))
    (fun g hg m m' g' hm => by
      obtain ⟨φ, U, k1, k2, k3⟩ := C32_group hm
      obtain ⟨p, q, s, φ, hV, hm', rfl⟩ := evaluateMLBW_ok hm
      refine ⟨rfl, fun id => (m' id).getD 0 - (m id).getD 0, ⟨_, U, k1, k2, ?_⟩, fun id => by ring⟩
      rw [(hsame g hg).legacyID, (hsame g hg).2.2.2.2.1]
      linear_combination k3) h1
  obtain ⟨hch, fs, hfs, hm1⟩ := hsum
  rw [hs] at hch
  simp only [List.map_cons, List.cons.injEq] at hch
  obtain ⟨hch, -⟩ := hch
  rw [hch] at hr hk hφ ⊢
  obtain ⟨Us, hUs, hF⟩ := forall₂_sum (P := IsCollision K lib E)
    (id := legacyID first.channel .elastic)
    (a := fun g => (g.channel.spinFactor : ℝ))
    (b := fun g => (g.channel.spinFactor : ℝ) * (4 * Real.sin (φ g.channel.numbers.l) ^ 2))
    (F := Real.pi / first.channel.waveNumber K E ^ 2) hfs (by
      rintro g hg f ⟨ψ, U, k1, k2, k3⟩
      refine ⟨U, k2, ?_⟩
      have h4 := phaseShift_neutron (K := K) (lib := lib) (hsame g hg).2.1
        (show g.channel.radii.phaseShift E = .ok radius by rw [← (hsame g hg).2.2.2.2.2, hr])
      rw [← (hsame g hg).2.2.2.2.1, hφ _ (hl g hg), k1] at h4
      rw [← Except.ok.inj h4, k3])
  refine ⟨Us, φ, radius, hUs, hr, hφ, ?_⟩
  rw [LegacyMap.add_getD, if_pos rfl, hm1, hF,
    LegacySystem.sum_by_l (fun g : SpinGroup => g.channel.numbers.l)
      (fun g => (g.channel.spinFactor : ℝ)) (fun l => 4 * Real.sin (φ l) ^ 2) s.groups s.lmax hl]
  have hw : ∀ l, ((s.groups.filter fun g => g.channel.numbers.l = l).map
      fun g => (g.channel.spinFactor : ℝ)).sum = (weight s.groups l : ℚ) := by
    intro l
    unfold weight
    generalize s.groups.filter (fun g => g.channel.numbers.l = l) = gs
    induction gs with
    | nil => simp
    | cons g gs ih => simp only [List.map_cons, List.sum_cons, ih]; push_cast; ring
  simp only [hw]
  have : ∑ l ∈ Finset.range (s.lmax + 1),
      ((2 * l + 1 - weight s.groups l : ℚ) : ℝ) * (4 * Real.sin (φ l) ^ 2)
      = 4 * ∑ l ∈ Finset.range (s.lmax + 1), (2 * (l : ℝ) + 1) * Real.sin (φ l) ^ 2
        - ∑ l ∈ Finset.range (s.lmax + 1), (weight s.groups l : ℝ) * (4 * Real.sin (φ l) ^ 2) := by
    rw [Finset.mul_sum, ← Finset.sum_sub_distrib]
    refine Finset.sum_congr rfl fun l _ => ?_
    push_cast
    ring
  rw [this]
  field_simp
  ring_nf

/-- C32: if the weights of the groups do not exceed `2 l + 1` for any `l`, the elastic cross section is
not negative. -/
theorem C32_nonneg {s s' : LegacySystem SpinGroup} {m m' : LegacyMap} {first : SpinGroup}
    {rest : List SpinGroup} (hs : s.groups = first :: rest)
    (hl : ∀ g ∈ s.groups, g.channel.numbers.l ≤ s.lmax)
    (hsame : ∀ g ∈ s.groups, SamePotential K E first.channel g.channel)
    (hg : ∀ g ∈ s.groups, 0 ≤ g.channel.spinFactor)
    (hw : ∀ l ≤ s.lmax, weight s.groups l ≤ 2 * l + 1)
    (h : s.evaluate K lib SpinGroup.channel (fun g => g.evaluateMLBW K lib E) E m = .ok (m', s')) :
    (m (legacyID first.channel .elastic)).getD 0 ≤ (m' (legacyID first.channel .elastic)).getD 0 := by
  obtain ⟨U, φ, radius, hU, -, -, h1⟩ := C32_system hs hl hsame h
  rw [h1]
  have h2 : 0 ≤ (List.zipWith (fun g u => (g.channel.spinFactor : ℝ) * normSq (1 - u))
      s.groups U).sum := by
    have : ∀ (gs : List SpinGroup) (us : List ℂ), (∀ g ∈ gs, 0 ≤ g.channel.spinFactor) →
        0 ≤ (List.zipWith (fun g u => (g.channel.spinFactor : ℝ) * normSq (1 - u)) gs us).sum := by
      intro gs
      induction gs with
      | nil => simp
      | cons g gs ih =>
        intro us hgs
        cases us with
        | nil => simp
        | cons u us =>
          rw [List.zipWith_cons_cons, List.sum_cons]
          have h1 := ih us fun g hg => hgs g (List.mem_cons_of_mem _ hg)
          have h2 : (0 : ℝ) ≤ g.channel.spinFactor := by exact_mod_cast hgs g List.mem_cons_self
          have h3 := normSq_nonneg (1 - u)
          positivity
    exact this _ _ hg
  have h3 : 0 ≤ ∑ l ∈ Finset.range (s.lmax + 1),
      ((2 * l + 1 - weight s.groups l : ℚ) : ℝ) * (4 * Real.sin (φ l) ^ 2) := by
    refine Finset.sum_nonneg fun l hl => ?_
    have h4 : (0 : ℚ) ≤ 2 * l + 1 - weight s.groups l := by
      have := hw l (by have := Finset.mem_range.mp hl; omega)
      linarith
    have h5 : (0 : ℝ) ≤ ((2 * l + 1 - weight s.groups l : ℚ) : ℝ) := by exact_mod_cast h4
    positivity
  have h4 := Real.pi_pos
  have : 0 ≤ Real.pi / first.channel.waveNumber K E ^ 2 := by positivity
  nlinarith [mul_nonneg this (add_nonneg h2 h3)]

end

end BreitWigner

/-! ## Weights of distinct (l,J) -/

/-- Distinct values of J that some channel spin allows have statistical weights that add up to at most
`2 l + 1`. -/
theorem weight_le (i I : ℚ) (hi : Spec.HalfInt i) (hI : Spec.HalfInt I) (l : ℕ) (Js : List ℚ)
    (hJs : Js.Nodup)
    (h : ∀ J ∈ Js, ∃ s, Spec.Couples i I s ∧ Spec.Couples l s J) :
    (Js.map fun J => statisticalSpinFactor J i I).sum ≤ 2 * l + 1 := by
  have hsf : ∀ J, (0 : ℚ) ≤ J → 0 ≤ statisticalSpinFactor J i I := by
    intro J hJ
    obtain ⟨a, rfl⟩ := hi
    obtain ⟨b, rfl⟩ := hI
    unfold statisticalSpinFactor
    positivity
  rw [← C02_spin_factors_exhaust i I hi hI (l + 1) l (Nat.lt_succ_self l)]
  choose! s hs1 hs2 using h
  have hsub : (Js.map fun J => (⟨l, s J, J, (-1) ^ l⟩ : QuantumNumbers)).Subperm
      ((makeQuantumNumbers i I (l + 1)).filter fun q => q.l = l) := by
    apply List.Nodup.subperm
    · refine (List.nodup_map_iff_inj_on hJs).mpr fun J _ J' _ hJ => ?_
      simp only [QuantumNumbers.mk.injEq] at hJ
      exact hJ.2.2.1
    · intro q hq
      obtain ⟨J, hJ, rfl⟩ := List.mem_map.mp hq
      rw [List.mem_filter]
      refine ⟨((C05_enumeration i I hi hI (l + 1)).1 _).mpr ⟨Nat.lt_succ_self l, hs1 J hJ, ?_, rfl⟩, by simp⟩
      exact hs2 J hJ
  obtain ⟨qs, hperm, hsubl⟩ := hsub
  have h1 : (Js.map fun J => statisticalSpinFactor J i I)
      = (Js.map fun J => (⟨l, s J, J, (-1) ^ l⟩ : QuantumNumbers)).map
        fun q => statisticalSpinFactor q.J i I := by
    rw [List.map_map]
    rfl
  rw [h1, ← (hperm.map _).sum_eq]
  refine (hsubl.map _).sum_le_sum fun x hx => ?_
  obtain ⟨q, hq, rfl⟩ := List.mem_map.mp hx
  have hq' := ((C05_enumeration i I hi hI (l + 1)).1 q).mp (List.mem_filter.mp hq).1
  exact hsf _ (le_trans (abs_nonneg _) hq'.2.2.1.1)

namespace BreitWigner

section

variable {K : Constants} {lib : CoulombLibrary} {E : ℝ}

/-- The groups describe one projectile of spin `i` on one target of spin `I`, and each has quantum
numbers that these spins allow. -/
def Physical (i I : ℚ) (groups : List SpinGroup) : Prop :=
  Spec.HalfInt i ∧ Spec.HalfInt I ∧ ∀ g ∈ groups,
    g.channel.spinFactor = statisticalSpinFactor g.channel.numbers.J i I ∧
    ∃ s, Spec.Couples i I s ∧ Spec.Couples g.channel.numbers.l s g.channel.numbers.J

/-! ## C35 -/

/-- C35: a legacy compound system is accepted exactly if it has groups and no two of them have the same
`l` and `J`. -/
theorem C35_accepted {G : Type} (channel : G → Channel) (groups : List G) :
    (∃ s, LegacySystem.make channel groups = .ok s) ↔
      groups ≠ [] ∧
        (groups.map fun g => ((channel g).numbers.l, (channel g).numbers.J)).Nodup := by
  have key : (∃ s, LegacySystem.make channel groups = .ok s) ↔
      LegacySystem.verifySpinGroups channel groups = .ok () := by
    unfold LegacySystem.make
    cases h : LegacySystem.verifySpinGroups channel groups with
    | error e => simp [bind, Except.bind]
    | ok u => simp [bind, Except.bind, pure, Except.pure]
  rw [key]
  unfold LegacySystem.verifySpinGroups
  by_cases h0 : groups = []
  · simp [h0]
  have hlen : groups.length ≠ 0 := by simpa using h0
  rw [if_neg hlen]
  have hcount : (∃ g ∈ groups, 1 < groups.countP (fun h =>
      (channel h).numbers.l == (channel g).numbers.l && (channel h).numbers.J == (channel g).numbers.J))
      ↔ ¬ (groups.map fun g => ((channel g).numbers.l, (channel g).numbers.J)).Nodup := by
    rw [List.nodup_iff_count_le_one]
    push Not
    have e : ∀ g, groups.countP (fun h => (channel h).numbers.l == (channel g).numbers.l
        && (channel h).numbers.J == (channel g).numbers.J)
        = (groups.map fun g => ((channel g).numbers.l, (channel g).numbers.J)).count
          ((channel g).numbers.l, (channel g).numbers.J) := by
      intro g
      rw [List.count, List.countP_map]
      rfl
    constructor
    · rintro ⟨g, -, hg⟩
      exact ⟨_, (e g) ▸ hg⟩
    · rintro ⟨x, hx⟩
      have hm : x ∈ groups.map fun g => ((channel g).numbers.l, (channel g).numbers.J) :=
        List.count_pos_iff.mp (by omega)
      obtain ⟨g, hg, rfl⟩ := List.mem_map.mp hm
      exact ⟨g, hg, (e g).symm ▸ hx⟩
  by_cases hp : (groups.map fun g => ((channel g).numbers.l, (channel g).numbers.J)).Nodup
  · rw [if_neg (by rw [hcount]; simpa using hp)]
    simp [h0, hp]
  · rw [if_pos (hcount.mpr hp)]
    simp [h0, hp]

/-- C35: the groups are kept as given and the greatest `l` of any group is found, whatever the order. -/
theorem C35_contents {G : Type} {channel : G → Channel} {groups : List G} {s : LegacySystem G}
    (h : LegacySystem.make channel groups = .ok s) : s.groups = groups ∧
      (∀ g ∈ groups, (channel g).numbers.l ≤ s.lmax) ∧ ∃ g ∈ groups, (channel g).numbers.l = s.lmax := by
  have h0 := ((C35_accepted channel groups).mp ⟨s, h⟩).1
  unfold LegacySystem.make at h
  simp only [bind, Except.bind] at h
  split at h
  · cases h
  simp only [pure, Except.pure, Except.ok.injEq] at h
  subst h
  cases groups with
  | nil => exact absurd rfl h0
  | cons g gs =>
    obtain ⟨h1, h2, h3⟩ := LegacySystem.foldl_max (fun g => (channel g).numbers.l) gs
      (channel g).numbers.l
    refine ⟨rfl, ?_, ?_⟩
    · intro g' hg'
      rcases List.mem_cons.mp hg' with rfl | hg'
      · exact h1
      · exact h2 g' hg'
    · rcases h3 with h3 | ⟨g', hg', h3⟩
      · exact ⟨g, List.mem_cons_self, h3.symm⟩
      · exact ⟨g', List.mem_cons_of_mem _ hg', h3.symm⟩

/-- The two formalisms. -/
inductive Formalism
  | singleLevel
  | multiLevel

/-- Evaluation of a group under a formalism. -/
noncomputable def evaluate (K : Constants) (lib : CoulombLibrary) (E : ℝ) :
    Formalism → SpinGroup → LegacyMap → Outcome (LegacyMap × SpinGroup)
  | .singleLevel => fun g => g.evaluateSLBW K lib E
  | .multiLevel => fun g => g.evaluateMLBW K lib E

/-- The term that distinguishes the formalisms. -/
noncomputable def cross (K : Constants) (E p q s : ℝ) (g : SpinGroup) (id : LegacyID) : Formalism → ℝ
  | .singleLevel => 0
  | .multiLevel => if id = legacyID g.channel .elastic then
      factor K g E * SpinGroup.crossTerm (stored g E p q s) g.resonances.length else 0

theorem evaluate_values {f : Formalism} {g g' : SpinGroup} {m m' : LegacyMap}
    (h : evaluate K lib E f g m = .ok (m', g')) : ∃ p q s φ, Values K lib g E p q s φ ∧
      g' = { g with cache := stored g E p q s } ∧ ∀ id, (m' id).getD 0 = (m id).getD 0
        + ((slbwMap K g E (components g E p q s φ) (fun _ => none)) id).getD 0
        + cross K E p q s g id f := by
  cases f with
  | singleLevel =>
    obtain ⟨p, q, s, φ, hV, rfl, rfl⟩ := evaluateSLBW_ok h
    refine ⟨p, q, s, φ, hV, rfl, fun id => ?_⟩
    rw [slbwMap_getD, slbwMap_getD]
    simp only [Option.getD_none, cross]
    ring
  | multiLevel =>
    obtain ⟨p, q, s, φ, hV, rfl, rfl⟩ := evaluateMLBW_ok h
    refine ⟨p, q, s, φ, hV, rfl, fun id => ?_⟩
    rw [LegacyMap.add_getD, slbwMap_getD, slbwMap_getD]
    simp only [Option.getD_none, cross]
    ring

/-- C35: a compound system adds, besides what its groups add, the potential scattering
`4π/k² Σ_{l=0}^{lmax} (2l+1) sin² φ_l`, every `l` up to the greatest one included whether or not there
is a group for it. -/
theorem C35_potential {f : Formalism} {s s' : LegacySystem SpinGroup} {m m' : LegacyMap}
    {first : SpinGroup} {rest : List SpinGroup} (hs : s.groups = first :: rest)
    (h : s.evaluate K lib SpinGroup.channel (evaluate K lib E f) E m = .ok (m', s')) :
    ∃ (m1 : LegacyMap) (groups' : List SpinGroup) (φ : ℕ → ℝ) (radius : ℝ),
      LegacySystem.evaluateGroups (evaluate K lib E f) s.groups m = .ok (m1, groups') ∧
      first.channel.radii.phaseShift E = .ok radius ∧
      (∀ l ≤ s.lmax, calculatePhaseShift lib .neutron l (first.channel.waveNumber K E * radius) 0
        = .ok (φ l)) ∧
      (∀ id, id ≠ legacyID first.channel .elastic → m' id = m1 id) ∧
      m' (legacyID first.channel .elastic) = some ((m1 (legacyID first.channel .elastic)).getD 0
        + 4 * Real.pi / first.channel.waveNumber K E ^ 2
          * ∑ l ∈ Finset.range (s.lmax + 1), (2 * (l : ℝ) + 1) * Real.sin (φ l) ^ 2) := by
  obtain ⟨m1, first', rest', radius, v, h1, -, hr, hk, hv, rfl⟩ := LegacySystem.evaluate_ok h
  obtain ⟨φ, hφ, rfl⟩ := LegacySystem.potential_ok hv
  obtain ⟨hch, -⟩ := LegacySystem.evaluateGroups_sum (channel := SpinGroup.channel)
    (R := fun _ _ => True) (fun g hg m m' g' hm => by
      obtain ⟨p, q, s, φ, -, rfl, h⟩ := evaluate_values hm
      exact ⟨rfl, _, trivial, fun id => by rw [h id, add_assoc]⟩) h1
  rw [hs] at hch
  simp only [List.map_cons, List.cons.injEq] at hch
  obtain ⟨hch, -⟩ := hch
  rw [hch] at hr hφ ⊢
  refine ⟨m1, _, φ, radius, h1, hr, hφ, fun id hid => LegacyMap.add_other _ _ hid, ?_⟩
  rw [LegacyMap.add_self, pow_two]

/-- C32: the elastic cross section of a multi-level Breit-Wigner system with physically allowed quantum
numbers is not negative, at any energy, for any resonances. -/
theorem C32_physical {i I : ℚ} {groups : List SpinGroup} {s s' : LegacySystem SpinGroup}
    {m m' : LegacyMap} {first : SpinGroup} {rest : List SpinGroup}
    (hmake : LegacySystem.make SpinGroup.channel groups = .ok s) (hs : groups = first :: rest)
    (hphys : Physical i I groups)
    (hsame : ∀ g ∈ groups, SamePotential K E first.channel g.channel)
    (h : s.evaluate K lib SpinGroup.channel (evaluate K lib E .multiLevel) E m = .ok (m', s')) :
    (m (legacyID first.channel .elastic)).getD 0 ≤ (m' (legacyID first.channel .elastic)).getD 0 := by
  obtain ⟨h1, h2, -⟩ := C35_contents hmake
  have h3 := ((C35_accepted _ _).mp ⟨s, hmake⟩).2
  obtain ⟨hi, hI, hphys⟩ := hphys
  refine C32_nonneg (h1.trans hs) (h1 ▸ h2) (h1 ▸ hsame) ?_ ?_ h
  · rw [h1]
    intro g hg
    obtain ⟨k1, s, -, k2⟩ := hphys g hg
    rw [k1]
    have k3 : 0 ≤ g.channel.numbers.J := le_trans (abs_nonneg _) k2.1
    obtain ⟨a, rfl⟩ := hi
    obtain ⟨b, rfl⟩ := hI
    unfold statisticalSpinFactor
    positivity
  · rw [h1]
    intro l _
    have k := weight_le i I hi hI l
      ((groups.filter fun g => g.channel.numbers.l = l).map fun g => g.channel.numbers.J) ?_ ?_
    · rw [List.map_map] at k
      refine le_of_eq_of_le ?_ k
      unfold weight
      congr 1
      refine List.map_congr_left fun g hg => ?_
      exact (hphys g (List.mem_filter.mp hg).1).1
    · have h4 : ((groups.filter fun g => g.channel.numbers.l = l).map
          fun g => (g.channel.numbers.l, g.channel.numbers.J)).Nodup :=
        h3.sublist (List.filter_sublist.map _)
      refine List.Nodup.of_map (fun J => (l, J)) ?_
      rw [List.map_map]
      have h5 : (groups.filter fun g => g.channel.numbers.l = l).map
            (((fun J => (l, J)) ∘ fun g : SpinGroup => g.channel.numbers.J))
          = (groups.filter fun g => g.channel.numbers.l = l).map
            fun g => (g.channel.numbers.l, g.channel.numbers.J) := by
        refine List.map_congr_left fun g hg => ?_
        have : g.channel.numbers.l = l := by simpa using (List.mem_filter.mp hg).2
        simp [this]
      rw [h5]
      exact h4
    · intro J hJ
      obtain ⟨g, hg, rfl⟩ := List.mem_map.mp hJ
      obtain ⟨hg, hgl⟩ := List.mem_filter.mp hg
      have hgl : g.channel.numbers.l = l := by simpa using hgl
      obtain ⟨-, s, k1, k2⟩ := hphys g hg
      exact ⟨s, k1, hgl ▸ k2⟩

/-! ## C33 -/

theorem penetrability_nonneg {c : Channel} (hc : c.type = .neutron)
    (hR : ∀ R, c.radii.penetrability E = .ok R → 0 ≤ R) {p : ℝ}
    (h : c.penetrability K lib E = .ok p) : 0 ≤ p := by
  unfold Channel.penetrability Channel.eta at h
  rw [if_neg (by rw [hc]; decide), hc] at h
  simp only [bind, Except.bind] at h
  split at h
  · cases h
  rename_i R hr
  have hk : 0 ≤ c.waveNumber K E := div_nonneg (Real.sqrt_nonneg _) K.hbar_pos.le
  have hρ := mul_nonneg hk (hR R hr)
  generalize c.waveNumber K E * R = ρ at *
  generalize c.numbers.l = l at *
  by_cases hl : l ≤ 4
  · rw [calculatePenetrability_eq lib hl] at h
    have := Except.ok.inj h
    rw [← this]
    match l, hl with
    | 0, _ => simpa [hsP] using hρ
    | 1, _ => simp only [hsP]; positivity
    | 2, _ => simp only [hsP]; positivity
    | 3, _ => simp only [hsP]; positivity
    | 4, _ => simp only [hsP]; positivity
  · rw [((C10_rejection lib l ρ 0).1).mpr (by omega)] at h
    cases h

end

end BreitWigner

end Verif
