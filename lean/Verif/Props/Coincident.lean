import Verif.Spec.Coincident
import Verif.Props.Uncoupled

/-!
# Property C113: of resonances at the same energy only the strengths matter
-/

namespace Verif

open Complex Matrix Spec

variable {option : BoundaryOption} {K : Constants} {lib : CoulombLibrary} {E : ℝ}

theorem SameStrengths.symm {n : ℕ} {rs rs' : List Resonance} (h : SameStrengths n rs rs') :
    SameStrengths n rs' rs :=
  ⟨fun r hr => h.lengths r (by rw [List.mem_append] at hr ⊢; exact hr.symm), fun e g => (h.energies e g).symm,
    fun e g i hi j hj => (h.products e g i hi j hj).symm⟩

open Classical in
/-- A sum over a list, sorted by a key. -/
theorem sum_by_fibre {α β : Type} [DecidableEq β] (key : α → β) (f : α → ℂ) (l : List α) (s : Finset β)
    (hs : ∀ x ∈ l, key x ∈ s) :
    (l.map f).sum = ∑ k ∈ s, ((l.filter fun x => key x = k).map f).sum := by
  induction l with
  | nil => simp
  | cons x l ih =>
    have h1 : ∀ k, (((x :: l).filter fun x => key x = k).map f).sum
        = (if key x = k then f x else 0) + ((l.filter fun x => key x = k).map f).sum := by
      intro k
      by_cases h : key x = k
      · simp [h]
      · simp [h]
    rw [List.map_cons, List.sum_cons, ih fun y hy => hs y (List.mem_cons_of_mem _ hy),
      Finset.sum_congr rfl fun k _ => h1 k, Finset.sum_add_distrib, Finset.sum_ite_eq,
      if_pos (hs x List.mem_cons_self)]

theorem mem_coincident {rs : List Resonance} {r : Resonance} {e g : ℝ} :
    r ∈ coincident rs e g ↔ r ∈ rs ∧ r.energy = e ∧ r.eliminated ^ 2 = g := by
  simp [coincident]

theorem rMatrix_coincident {channels : List Channel} {rs rs' : List Resonance}
    (h : SameStrengths channels.length rs rs') (E : ℝ) : rMatrix channels rs E = rMatrix channels rs' E := by
  classical
  ext c d
  simp only [rMatrix, of_apply]
  set key : Resonance → ℝ × ℝ := fun r => (r.energy, r.eliminated ^ 2) with hkey
  set s : Finset (ℝ × ℝ) := ((rs ++ rs').map key).toFinset with hs
  have hmem : ∀ r ∈ rs ++ rs', key r ∈ s := fun r hr => by
    rw [hs, List.mem_toFinset]
    exact List.mem_map_of_mem hr
  rw [sum_by_fibre key _ rs s fun r hr => hmem r (List.mem_append_left _ hr),
    sum_by_fibre key _ rs' s fun r hr => hmem r (List.mem_append_right _ hr)]
  refine Finset.sum_congr rfl fun k _ => ?_
  have hfilter : ∀ l : List Resonance, (l.filter fun r => key r = k) = coincident l k.1 k.2 := by
    intro l
    unfold coincident
    refine List.filter_congr fun r _ => ?_
    simp only [hkey, Prod.ext_iff]
  -- the denominators are the same, the closed channels too
  have hterm : ∀ l : List Resonance,
      ((coincident l k.1 k.2).map fun r => (amplitude channels E r c : ℂ) * amplitude channels E r d
        / ((r.energy : ℂ) - E - I * (r.eliminated : ℂ) ^ 2)).sum
      = (if channels[c].belowThreshold E ∨ channels[d].belowThreshold E then 0 else
          (((coincident l k.1 k.2).map fun r => r.width c * r.width d).sum : ℝ))
        / ((k.1 : ℂ) - E - I * (k.2 : ℂ)) := by
    intro l
    by_cases hc : channels[c].belowThreshold E ∨ channels[d].belowThreshold E
    · rw [if_pos hc, Complex.ofReal_zero, zero_div]
      apply List.sum_eq_zero
      intro x hx
      obtain ⟨r, hr, rfl⟩ := List.mem_map.mp hx
      unfold amplitude
      rcases hc with hc | hc
      · rw [if_pos hc]; simp
      · rw [if_pos hc]; simp
    · rw [if_neg hc]
      obtain ⟨hc, hd⟩ := not_or.mp hc
      have hall : ∀ r ∈ coincident l k.1 k.2, r.energy = k.1 ∧ r.eliminated ^ 2 = k.2 :=
        fun r hr => (mem_coincident.mp hr).2
      generalize coincident l k.1 k.2 = t at hall
      induction t with
      | nil => simp
      | cons r t ih =>
        obtain ⟨e1, e2⟩ := hall r List.mem_cons_self
        rw [List.map_cons, List.sum_cons, ih fun x hx => hall x (List.mem_cons_of_mem _ hx), List.map_cons,
          List.sum_cons]
        have a1 : amplitude channels E r c = r.width c := by rw [amplitude, if_neg hc]
        have a2 : amplitude channels E r d = r.width d := by rw [amplitude, if_neg hd]
        rw [a1, a2, e1, ← Complex.ofReal_pow, e2, ← add_div]
        push_cast
        rfl
  rw [hfilter, hfilter, hterm, hterm, h.products k.1 k.2 c c.isLt d d.isLt]

/-- C113: tables with the same strengths give the same cross sections and the same T-matrix elements, and fail
at the same energies. -/
theorem C113_spin_group (channels : List Channel) (reactions : List ReactionID)
    (incident : List (Fin channels.length)) (ids ids' : List Str) {rs rs' : List Resonance}
    (h : SameStrengths channels.length rs rs') (cache : MatrixCache channels.length)
    (result : CrossSectionMap) (tresult : Str → Option ℂ) :
    SpinGroup.evaluate option K lib ⟨channels, reactions, incident, ⟨ids, rs⟩⟩ E cache result
      = SpinGroup.evaluate option K lib ⟨channels, reactions, incident, ⟨ids', rs'⟩⟩ E cache result ∧
    SpinGroup.evaluateTMatrix option K lib ⟨channels, reactions, incident, ⟨ids, rs⟩⟩ E cache tresult
      = SpinGroup.evaluateTMatrix option K lib ⟨channels, reactions, incident, ⟨ids', rs'⟩⟩ E cache tresult := by
  have pole : ∀ {l l' : List Resonance}, (∀ e g, coincident l e g = [] ↔ coincident l' e g = []) →
      (∃ r ∈ l, r.denominator E = 0) → ∃ r ∈ l', r.denominator E = 0 := by
    rintro l l' hl ⟨r, hr, h0⟩
    have h1 : r.energy = E ∧ r.eliminated = 0 := by
      by_contra hne
      exact (denominator_ne_zero r E).mpr hne h0
    have h2 : coincident l E 0 ≠ [] := List.ne_nil_of_mem (a := r)
      (mem_coincident.mpr ⟨hr, h1.1, by rw [h1.2]; norm_num⟩)
    obtain ⟨r', hr'⟩ := List.exists_mem_of_ne_nil _ fun h3 => h2 ((hl E 0).mpr h3)
    obtain ⟨m1, m2, m3⟩ := mem_coincident.mp hr'
    refine ⟨r', m1, ?_⟩
    by_contra hne
    exact (denominator_ne_zero r' E).mp hne ⟨m2, pow_eq_zero_iff (two_ne_zero) |>.mp m3⟩
  have key : ∀ P, rlmatrix option K lib channels rs E P cache
      = rlmatrix option K lib channels rs' E P cache := by
    intro P
    refine rlmatrix_congr ⟨fun _ r hr => h.lengths r (List.mem_append_right _ hr),
      fun _ r hr => h.lengths r (List.mem_append_left _ hr)⟩
      ⟨pole h.energies, pole fun e g => (h.energies e g).symm⟩ (rMatrix_coincident h E)
  refine ⟨?_, ?_⟩
  · simp only [SpinGroup.evaluate, SpinGroup.prepare, key]
    cases incident <;> rfl
  · simp only [SpinGroup.evaluateTMatrix, key]

/-- C113: tables with the same strengths are accepted by the same channels; the table of resonances itself is
always accepted. -/
theorem C113_accepted {channels : List Channel} {ids : List Str} {rs rs' : List Resonance}
    (h : SameStrengths ids.length rs rs') :
    makeTable ids rs = .ok ⟨ids, rs⟩ ∧ makeTable ids rs' = .ok ⟨ids, rs'⟩ ∧
      ((∃ g, makeSpinGroup channels ⟨ids, rs⟩ = .ok g) ↔ ∃ g, makeSpinGroup channels ⟨ids, rs'⟩ = .ok g) := by
  refine ⟨?_, ?_, ?_⟩
  · rw [makeTable, if_pos fun r hr => h.lengths r (List.mem_append_left _ hr)]
  · rw [makeTable, if_pos fun r hr => h.lengths r (List.mem_append_right _ hr)]
  · rw [C24_accepted, C24_accepted]
    exact ⟨fun k => ⟨k.1, k.2, k.3, k.4, k.5, k.6⟩, fun k => ⟨k.1, k.2, k.3, k.4, k.5, k.6⟩⟩

/-- Spin groups of compound systems that differ in their tables alone, which have the same strengths. -/
inductive SameStrengthGroups : GroupState → GroupState → Prop
  | intro (channels : List Channel) (reactions : List ReactionID) (incident : List (Fin channels.length))
      (ids ids' : List Str) {rs rs' : List Resonance} (h : SameStrengths channels.length rs rs')
      (cache : MatrixCache channels.length) :
      SameStrengthGroups ⟨⟨channels, reactions, incident, ⟨ids, rs⟩⟩, cache⟩
        ⟨⟨channels, reactions, incident, ⟨ids', rs'⟩⟩, cache⟩

/-- C113 for compound systems. -/
theorem C113_system {s s' : CompoundSystem} (h : List.Forall₂ SameStrengthGroups s s')
    {start m : CrossSectionMap} {s₁ : CompoundSystem}
    (hok : CompoundSystem.evaluate option K lib E s start = .ok (m, s₁)) :
    ∃ s₂, CompoundSystem.evaluate option K lib E s' start = .ok (m, s₂) ∧
      List.Forall₂ SameStrengthGroups s₁ s₂ := by
  induction h generalizing start s₁ with
  | nil =>
    rw [evaluate_nil] at hok
    cases hok
    exact ⟨[], rfl, .nil⟩
  | @cons st st' s s' h1 _ ih =>
    obtain ⟨r, c, rest, h2, h3, rfl⟩ := evaluate_cons_ok.mp hok
    obtain ⟨s₂, h4, h5⟩ := ih h3
    cases h1 with
    | intro channels reactions incident ids ids' h cache =>
      have h6 := (C113_spin_group (option := option) (K := K) (lib := lib) (E := E) channels reactions incident
        ids ids' h cache start fun _ => none).1
      exact ⟨_, evaluate_cons_ok.mpr ⟨_, _, _, h6 ▸ h2, h4, rfl⟩,
        .cons (.intro channels reactions incident ids ids' h c) h5⟩

/-! ## Two ways to change resonances -/

theorem coincident_cons {r : Resonance} {rs : List Resonance} (e g : ℝ)
    [Decidable (r.energy = e ∧ r.eliminated ^ 2 = g)] :
    coincident (r :: rs) e g
      = if r.energy = e ∧ r.eliminated ^ 2 = g then r :: coincident rs e g else coincident rs e g := by
  unfold coincident
  rw [List.filter_cons]
  simp only [decide_eq_true_eq]

theorem coincident_append {rs rs' : List Resonance} (e g : ℝ) :
    coincident (rs ++ rs') e g = coincident rs e g ++ coincident rs' e g := List.filter_append ..

/-- A resonance with all its amplitudes multiplied, but for the eliminated one. -/
def scaled (x : ℝ) (r : Resonance) : Resonance := ⟨r.energy, r.widths.map (x * ·), r.eliminated⟩

theorem scaled_width (x : ℝ) (r : Resonance) (i : ℕ) : (scaled x r).width i = x * r.width i := by
  simp only [scaled, Resonance.width, List.getD_eq_getElem?_getD, List.getElem?_map]
  cases r.widths[i]? <;> simp

/-- C113: a resonance may be split into `n` equal ones, each with the `n`-th part of the widths; the eliminated
width stays the same. -/
theorem C113_split {n : ℕ} {before after : List Resonance} {r : Resonance} {k : ℕ} (hk : k ≠ 0)
    (hlen : ∀ x ∈ before ++ r :: after, x.widths.length = n) :
    SameStrengths n (before ++ r :: after)
      (before ++ List.replicate k (scaled (1 / Real.sqrt k) r) ++ after) := by
  classical
  have hrep : ∀ e g, coincident (List.replicate k (scaled (1 / Real.sqrt k) r)) e g
      = if r.energy = e ∧ r.eliminated ^ 2 = g then List.replicate k (scaled (1 / Real.sqrt k) r) else [] := by
    intro e g
    unfold coincident
    rw [List.filter_replicate]
    simp only [decide_eq_true_eq]
    rfl
  refine ⟨fun x hx => ?_, fun e g => ?_, fun e g i hi j hj => ?_⟩
  · rw [List.mem_append] at hx
    rcases hx with hx | hx
    · exact hlen x hx
    rw [List.mem_append, List.mem_append] at hx
    rcases hx with (hx | hx) | hx
    · exact hlen x (List.mem_append_left _ hx)
    · rw [List.eq_of_mem_replicate hx]
      show (r.widths.map _).length = n
      rw [List.length_map]
      exact hlen r (by simp)
    · exact hlen x (by simp [hx])
  · rw [coincident_append, coincident_append, coincident_append, coincident_cons, hrep]
    by_cases hr : r.energy = e ∧ r.eliminated ^ 2 = g
    · rw [if_pos hr, if_pos hr]
      simp [hk]
    · rw [if_neg hr, if_neg hr]
      simp
  · rw [coincident_append, coincident_append, coincident_append, coincident_cons, hrep]
    by_cases hr : r.energy = e ∧ r.eliminated ^ 2 = g
    · rw [if_pos hr, if_pos hr]
      simp only [List.map_append, List.sum_append, List.map_cons, List.sum_cons, List.map_replicate,
        List.sum_replicate, scaled_width, nsmul_eq_mul]
      have h0 : (0 : ℝ) < k := by exact_mod_cast Nat.pos_of_ne_zero hk
      have h1 : (k : ℝ) * (1 / Real.sqrt k * r.width i * (1 / Real.sqrt k * r.width j))
          = r.width i * r.width j := by
        have := Real.mul_self_sqrt h0.le
        have h2 : Real.sqrt k ≠ 0 := (Real.sqrt_pos.mpr h0).ne'
        field_simp
        rw [pow_two, this]
      rw [h1]
      ring
    · rw [if_neg hr, if_neg hr]
      simp

/-- Two lists of amplitudes, mixed. -/
def mixedWidths (x y : ℝ) (a b : List ℝ) : List ℝ := List.zipWith (fun u v => x * u + y * v) a b

/-- C113: two resonances with the same energy and the same eliminated width may be rotated into each other. -/
theorem C113_rotated {n : ℕ} {rest : List Resonance} {e g θ : ℝ} {a b : List ℝ}
    (hlen : ∀ x ∈ rest, x.widths.length = n) (ha : a.length = n) (hb : b.length = n) :
    SameStrengths n (⟨e, a, g⟩ :: ⟨e, b, g⟩ :: rest)
      (⟨e, mixedWidths (Real.cos θ) (Real.sin θ) a b, g⟩ ::
        ⟨e, mixedWidths (-Real.sin θ) (Real.cos θ) a b, g⟩ :: rest) := by
  classical
  have hl : ∀ x y, (mixedWidths x y a b).length = n := by
    intro x y
    simp [mixedWidths, ha, hb]
  refine ⟨fun x hx => ?_, fun e' g' => ?_, fun e' g' i hi j hj => ?_⟩
  · simp only [List.cons_append, List.mem_cons, List.mem_append] at hx
    rcases hx with rfl | rfl | hx | rfl | rfl | hx
    · exact ha
    · exact hb
    · exact hlen x hx
    · exact hl _ _
    · exact hl _ _
    · exact hlen x hx
  · rw [coincident_cons, coincident_cons, coincident_cons, coincident_cons]
    dsimp only
    split_ifs <;> simp
  · rw [coincident_cons, coincident_cons, coincident_cons, coincident_cons]
    dsimp only
    have hw : ∀ x y i, i < n → (⟨e, mixedWidths x y a b, g⟩ : Resonance).width i
        = x * a.getD i 0 + y * b.getD i 0 := by
      intro x y i hi
      have h1 : i < a.length := ha ▸ hi
      have h2 : i < b.length := hb ▸ hi
      simp [Resonance.width, mixedWidths, List.getD_eq_getElem?_getD, h1, h2, hl]
    split_ifs
    · simp only [List.map_cons, List.sum_cons]
      rw [hw _ _ i hi, hw _ _ i hi, hw _ _ j hj, hw _ _ j hj]
      show a.getD i 0 * a.getD j 0 + (b.getD i 0 * b.getD j 0 + _) = _
      have := Real.sin_sq_add_cos_sq θ
      linear_combination -(a.getD i 0 * a.getD j 0 + b.getD i 0 * b.getD j 0) * this
    · rfl

namespace Example

/-- The table of the example with its first resonance split into three. -/
noncomputable def splitResonances : List Resonance :=
  List.replicate 3 (scaled (1 / Real.sqrt 3) ⟨1, [1 / 2, 1 / 3, 1 / 5], 1 / 10⟩) ++ [⟨5, [1 / 4, 0, 1], 0⟩]

/-- C113 applies to the spin group of the example, which can be evaluated at energy 2: split resonances give
the same cross sections. -/
example (option : BoundaryOption) (lib : CoulombLibrary) (cache : MatrixCache group.channels.length)
    (result : CrossSectionMap) :
    ∃ r, group.evaluate option constants lib 2 cache result = .ok r ∧
      SpinGroup.evaluate option constants lib
        ⟨group.channels, group.reactions, group.incident, ⟨group.table.channels, splitResonances⟩⟩ 2 cache result
          = .ok r := by
  obtain ⟨⟨r, hr⟩, -⟩ := evaluates option lib cache result fun _ => none
  refine ⟨r, hr, ?_⟩
  have h := C113_split (n := 3) (before := []) (r := ⟨1, [1 / 2, 1 / 3, 1 / 5], 1 / 10⟩)
    (after := [⟨5, [1 / 4, 0, 1], 0⟩]) (k := 3) (by norm_num) (by simp)
  have h1 := (C113_spin_group (option := option) (K := constants) (lib := lib) (E := 2) group.channels
    group.reactions group.incident group.table.channels group.table.channels h cache result fun _ => none).1
  simp only [List.nil_append] at h1
  exact h1.symm.trans hr

/-- Two resonances at the same energy, rotated by 60 degrees. -/
example : SameStrengths 2 [⟨1, [2, 0], 1 / 10⟩, ⟨1, [0, 3], 1 / 10⟩]
    [⟨1, mixedWidths (Real.cos (Real.pi / 3)) (Real.sin (Real.pi / 3)) [2, 0] [0, 3], 1 / 10⟩,
      ⟨1, mixedWidths (-Real.sin (Real.pi / 3)) (Real.cos (Real.pi / 3)) [2, 0] [0, 3], 1 / 10⟩] :=
  C113_rotated (rest := []) (by simp) rfl rfl

end Example

end Verif
