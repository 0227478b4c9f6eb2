import Verif.Lemmas.UnitsGroup
import Verif.Lemmas.CompoundSystem
import Verif.Lemmas.TMatrix
import Verif.Props.Continuity

/-!
# Property C92: cross sections do not depend on the units (R-matrix)
-/

namespace Verif

open Spec (Units)

variable {option : BoundaryOption} {K : Constants} {lib : CoulombLibrary} {E : ℝ} (u : Units)

/-- The channels and resonances of a group, in the new units. -/
def Converted (g g' : SpinGroup) : Prop :=
  g'.channels = g.channels.map u.channel ∧ g'.table.resonances = g.table.resonances.map u.resonance

theorem units_reactions {g g' : SpinGroup} (hg : g.Built) (hg' : g'.Built) (h : Converted u g g') :
    g'.reactions = g.reactions := by
  obtain ⟨-, first, rest, h1, h2, -⟩ := hg.incident
  obtain ⟨-, first', rest', h1', h2', -⟩ := hg'.incident
  rw [h2, h2', h.1, List.map_map]
  have h3 := h.1
  rw [h1', h1, List.map_cons, List.cons.injEq] at h3
  rw [h3.1]
  rfl

/-- C92 for a spin group: with everything converted to other units of energy, length, mass and charge, the group can
be evaluated at an energy if and only if it can in the old units, and the cross sections are the old ones converted to
the new unit of area. -/
theorem C92_spin_group {g g' : SpinGroup} (hg : g.Built) (hg' : g'.Built) (h : Converted u g g')
    (cache : MatrixCache g.channels.length) (cache' : MatrixCache g'.channels.length) (start : CrossSectionMap) :
    (∀ m c, g.evaluate option K lib E cache start = .ok (m, c) →
      ∃ c', g'.evaluate option (u.constants K) lib (u.energy * E) cache' (u.crossSections start)
        = .ok (u.crossSections m, c')) ∧
    ((∃ r, g'.evaluate option (u.constants K) lib (u.energy * E) cache' (u.crossSections start) = .ok r) →
      ∃ r, g.evaluate option K lib E cache start = .ok r) := by
  have hreac := units_reactions u hg hg' h
  obtain ⟨channels', reactions', incident', table'⟩ := g'
  obtain ⟨tc, trs⟩ := table'
  obtain ⟨hchannels, hresonances⟩ := h
  simp only at hchannels hresonances hreac
  subst hchannels hresonances
  constructor
  · intro m c hok
    obtain ⟨P, S, w, phi, hev, hres⟩ := evaluate_ok hg hok
    have hev' := (units_evaluable u).mpr hev
    obtain ⟨⟨m', c'⟩, e⟩ := evaluate_ok_of hg' hev' cache' (u.crossSections start)
    obtain ⟨P₂, S₂, w₂, phi₂, hev₂, hres'⟩ := evaluate_ok hg' e
    refine ⟨c', ?_⟩
    rw [e]
    congr 2
    funext id
    rw [hres', ← Evaluable_contribution hev' hev₂, units_contribution]
    unfold Units.crossSections
    rw [hres]
    simp only [hreac]
    split
    · cases start id with
      | none => simp
      | some x => simp only [Option.map_some, Option.getD_some, mul_add]
    · rfl
  · rintro ⟨⟨m', c'⟩, e⟩
    obtain ⟨P, S, w, phi, hev, -⟩ := evaluate_ok hg' e
    have hback : ∀ f : Fin (g.channels.map u.channel).length → ℝ,
        f = (f ∘ unitsIndex u g.channels) ∘ (unitsIndex u g.channels).symm := by
      intro f
      funext i
      simp only [Function.comp_apply, Equiv.apply_symm_apply]
    simp only at hev
    rw [hback P, hback S, hback w, hback phi, units_evaluable] at hev
    exact evaluate_ok_of hg hev cache start

/-- C92 for a compound system. -/
theorem C92_system {s s' : CompoundSystem} (hg : ∀ st ∈ s, st.group.Built) (hg' : ∀ st ∈ s', st.group.Built)
    (hs : List.Forall₂ (fun st st' => Converted u st.group st'.group) s s') (start : CrossSectionMap) :
    (∀ m s₂, CompoundSystem.evaluate option K lib E s start = .ok (m, s₂) →
      ∃ s₂', CompoundSystem.evaluate option (u.constants K) lib (u.energy * E) s' (u.crossSections start)
        = .ok (u.crossSections m, s₂')) ∧
    ((∃ r, CompoundSystem.evaluate option (u.constants K) lib (u.energy * E) s' (u.crossSections start) = .ok r) →
      ∃ r, CompoundSystem.evaluate option K lib E s start = .ok r) := by
  induction hs generalizing start with
  | nil =>
    refine ⟨fun m s₂ hok => ?_, fun _ => ⟨_, rfl⟩⟩
    cases hok
    exact ⟨_, rfl⟩
  | @cons st st' s s' h1 hs ih =>
    have hgroup := C92_spin_group (option := option) (K := K) (lib := lib) (E := E) u (hg st List.mem_cons_self)
      (hg' st' List.mem_cons_self) h1 st.cache st'.cache start
    have ih := ih (fun x hx => hg x (List.mem_cons_of_mem _ hx)) (fun x hx => hg' x (List.mem_cons_of_mem _ hx))
    constructor
    · intro m s₂ hok
      obtain ⟨r, c, rest, h4, h5, rfl⟩ := evaluate_cons_ok.mp hok
      obtain ⟨c', e1⟩ := hgroup.1 _ _ h4
      obtain ⟨s₂', e2⟩ := (ih r).1 _ _ h5
      exact ⟨_, evaluate_cons_ok.mpr ⟨_, _, _, e1, e2, rfl⟩⟩
    · rintro ⟨⟨m', s₂'⟩, hok⟩
      obtain ⟨r', c', rest', h4, h5, rfl⟩ := evaluate_cons_ok.mp hok
      obtain ⟨⟨r, c⟩, e1⟩ := hgroup.2 ⟨_, h4⟩
      obtain ⟨c'', e2⟩ := hgroup.1 _ _ e1
      rw [e2] at h4
      cases h4
      obtain ⟨⟨m, rest⟩, e3⟩ := (ih r).2 ⟨_, h5⟩
      exact ⟨_, evaluate_cons_ok.mpr ⟨_, _, _, e1, e3, rfl⟩⟩

/-- C92: the elements of the T-matrix are numbers without units. -/
theorem C92_tmatrix {g g' : SpinGroup} (hg : g.Built) (hg' : g'.Built) (h : Converted u g g')
    (harrow : ∀ c ∈ g.channels, ¬ ContainsArrow c.id)
    {cache c : MatrixCache g.channels.length} {cache' c' : MatrixCache g'.channels.length}
    {start start' t t' : Str → Option ℂ}
    (hok : g.evaluateTMatrix option K lib E cache start = .ok (t, c))
    (hok' : g'.evaluateTMatrix option (u.constants K) lib (u.energy * E) cache' start' = .ok (t', c')) :
    ∀ a ∈ g.channels, ∀ b ∈ g.channels, t' (tMatrixKey a.id b.id) = t (tMatrixKey a.id b.id) := by
  obtain ⟨channels', reactions', incident', table'⟩ := g'
  obtain ⟨tc, trs⟩ := table'
  obtain ⟨hchannels, hresonances⟩ := h
  simp only at hchannels hresonances
  subst hchannels hresonances
  obtain ⟨P, S, hP, hS, -, -, -, hval, -⟩ := evaluateTMatrix_ok hg harrow hok
  obtain ⟨P', S', hP', hS', -, -, -, hval', -⟩ := evaluateTMatrix_ok hg' (by
    intro c hc
    obtain ⟨d, hd, rfl⟩ := List.mem_map.mp hc
    exact harrow d hd) hok'
  have hfun : ∀ i : Fin g.channels.length, _ :=
    fun i => units_functions (K := K) (lib := lib) (E := E) (c := g.channels[i]) u
  have eP : P' = P ∘ (unitsIndex u g.channels).symm := by
    funext i
    obtain ⟨i, rfl⟩ := (unitsIndex u g.channels).surjective i
    have := hP' (unitsIndex u g.channels i)
    simp only at this
    rw [units_getElem, (hfun i).1, hP i] at this
    simpa using this.symm
  have eT : ∀ i j : Fin g.channels.length, Spec.tMatrix option (g.channels.map u.channel)
      (g.table.resonances.map u.resonance) (u.energy * E) P' S' (unitsIndex u g.channels i) (unitsIndex u g.channels j)
      = Spec.tMatrix option g.channels g.table.resonances E P S i j := by
    intro i j
    rw [← units_tMatrix (option := option) (E := E) (P := P) (S := S) u i j, eP]
    cases option with
    | shiftFactor => rfl
    | constant =>
      congr 1
      funext i
      obtain ⟨i, rfl⟩ := (unitsIndex u g.channels).surjective i
      have := hS' rfl (unitsIndex u g.channels i)
      simp only at this
      rw [units_getElem, (hfun i).2.1, hS rfl i] at this
      simpa using this.symm
  intro a ha b hb
  obtain ⟨i, hi, rfl⟩ := List.getElem_of_mem ha
  obtain ⟨j, hj, rfl⟩ := List.getElem_of_mem hb
  have h1 := hval ⟨i, hi⟩ ⟨j, hj⟩
  have h2 := hval' (unitsIndex u g.channels ⟨i, hi⟩) (unitsIndex u g.channels ⟨j, hj⟩)
  simp only at h2
  rw [units_getElem, units_getElem, eT] at h2
  exact h2.trans h1.symm

/-! ## Construction -/

/-- C92: the constructors accept the data in the new units if and only if they accept them in the old ones, and make
the converted objects. -/
theorem C92_construction :
    (∀ id mass charge spin parity, makeParticle id (u.mass * mass) (u.charge * charge) spin parity
      = (makeParticle id mass charge spin parity).map u.particle) ∧
    (∀ a b id, makeParticlePair (u.particle a) (u.particle b) id = (makeParticlePair a b id).map u.pair) ∧
    (∀ t a b id q numbers radii B, makeChannel t (u.pair a) (u.pair b) id (u.energy * q) numbers (u.radii radii) B
      = u.channel (makeChannel t a b id q numbers radii B)) ∧
    ∀ channels ids rs,
      (∃ g', makeSpinGroup (channels.map u.channel) ⟨ids, rs.map u.resonance⟩ = .ok g') ↔
        ∃ g, makeSpinGroup channels ⟨ids, rs⟩ = .ok g := by
  refine ⟨?_, ?_, fun _ _ _ _ _ _ _ _ => rfl, ?_⟩
  · intro id mass charge spin parity
    unfold makeParticle
    have h1 : u.mass * mass < 0 ↔ mass < 0 := by
      rw [mul_neg_iff]
      simp [u.mass_pos, not_lt.mpr u.mass_pos.le]
    have h2 : u.charge * charge < 0 ↔ charge < 0 := by
      rw [mul_neg_iff]
      simp [u.charge_pos, not_lt.mpr u.charge_pos.le]
    by_cases hm : mass < 0
    · rw [if_pos hm, if_pos (h1.mpr hm)]
      rfl
    · rw [if_neg hm, if_neg (fun h => hm (h1.mp h))]
      by_cases hc : charge < 0
      · rw [if_pos hc, if_pos (h2.mpr hc)]
        rfl
      · rw [if_neg hc, if_neg (fun h => hc (h2.mp h))]
        rfl
  · intro a b id
    unfold makeParticlePair
    have hm := u.mass_pos.ne'
    have hsum : (u.particle a).mass + (u.particle b).mass = u.mass * (a.mass + b.mass) := by
      change u.mass * a.mass + u.mass * b.mass = _
      ring
    simp only [hsum]
    by_cases h0 : a.mass + b.mass = 0
    · rw [if_pos h0, if_pos (by rw [h0, mul_zero])]
      rfl
    · rw [if_neg h0, if_neg (mul_ne_zero hm h0)]
      change Except.ok (ParticlePair.mk _ _ _ (u.mass * a.mass * (u.mass * b.mass) / (u.mass * (a.mass + b.mass)))
        (u.mass * b.mass / (u.mass * (a.mass + b.mass)))) = Except.ok (ParticlePair.mk _ _ _
          (u.mass * (a.mass * b.mass / (a.mass + b.mass))) (b.mass / (a.mass + b.mass)))
      rw [mul_div_mul_left _ _ hm, mul_assoc, mul_div_mul_left _ _ hm, mul_left_comm, mul_div_assoc]
  · intro channels ids rs
    rw [C24_accepted, C24_accepted]
    have hids : (channels.map u.channel).map Channel.id = channels.map Channel.id := by
      rw [List.map_map]
      rfl
    constructor
    · intro h
      refine ⟨?_, ?_, ?_, ?_, ?_, ?_⟩
      · intro h0
        exact h.nonempty (by rw [h0]; rfl)
      · exact fun c hc d hd => h.sameIncident _ (List.mem_map_of_mem hc) (u.channel d) (List.mem_map_of_mem hd)
      · rw [← hids]
        exact h.uniqueIDs
      · exact fun c hc d hd => h.sameJpi _ (List.mem_map_of_mem hc) (u.channel d) (List.mem_map_of_mem hd)
      · obtain ⟨c', hc', h2⟩ := h.hasIncident
        obtain ⟨c, hc, rfl⟩ := List.mem_map.mp hc'
        exact ⟨c, hc, h2⟩
      · rw [← hids]
        exact h.sameTable
    · intro h
      refine ⟨?_, ?_, ?_, ?_, ?_, ?_⟩
      · rw [ne_eq, List.map_eq_nil_iff]
        exact h.nonempty
      · intro c' hc' d' hd'
        obtain ⟨c, hc, rfl⟩ := List.mem_map.mp hc'
        obtain ⟨d, hd, rfl⟩ := List.mem_map.mp hd'
        exact h.sameIncident c hc d hd
      · rw [hids]
        exact h.uniqueIDs
      · intro c' hc' d' hd'
        obtain ⟨c, hc, rfl⟩ := List.mem_map.mp hc'
        obtain ⟨d, hd, rfl⟩ := List.mem_map.mp hd'
        exact h.sameJpi c hc d hd
      · obtain ⟨c, hc, h2⟩ := h.hasIncident
        exact ⟨_, List.mem_map_of_mem hc, h2⟩
      · rw [hids]
        exact h.sameTable

/-! ## Energy grids -/

theorem sortUnique_scaled {s : ℝ} (hs : 0 < s) (l : List ℝ) :
    sortUnique (l.map (s * ·)) = (sortUnique l).map (s * ·) := by
  refine List.Pairwise.eq_of_mem_iff (sortUnique_sorted _) ?_ ?_
  · exact (sortUnique_sorted l).map _ fun a b h => mul_lt_mul_of_pos_left h hs
  · intro a
    rw [mem_sortUnique, List.mem_map, List.mem_map]
    simp only [mem_sortUnique]

theorem collect_list {α : Type} (F : α → Outcome ℝ) (l : List α) :
    (collect fun i : Fin l.length => F l[i]).map List.ofFn = l.mapM F := by
  induction l with
  | nil => rfl
  | cons a l ih =>
    rw [List.mapM_cons, ← ih]
    change (do
      let head ← F a
      let tail ← collect fun i : Fin l.length => F l[i]
      pure (Fin.cons head tail : Fin (l.length + 1) → ℝ) : Outcome (Fin (l.length + 1) → ℝ)).map List.ofFn = _
    cases F a with
    | error e => rfl
    | ok x =>
      cases collect fun i : Fin l.length => F l[i] with
      | error e => rfl
      | ok f =>
        change Except.ok (List.ofFn (Fin.cons x f : Fin (l.length + 1) → ℝ)) = Except.ok (x :: List.ofFn f)
        rw [List.ofFn_succ]
        rfl

theorem totalWidth_list (channels : List Channel) (r : Resonance) :
    totalWidth K lib channels r = (channels.mapM fun c : Channel => c.penetrability K lib r.energy).map fun P =>
      (List.zipWith (fun gamma p => 2 * p * gamma * gamma) r.widths P).foldl (· + ·)
        (2 * r.eliminated * r.eliminated) := by
  unfold totalWidth
  rw [← collect_list]
  cases collect fun i : Fin channels.length => channels[i].penetrability K lib r.energy <;> rfl

theorem units_mapM (channels : List Channel) :
    (channels.map u.channel).mapM (fun c : Channel => c.penetrability (u.constants K) lib (u.energy * E))
      = channels.mapM fun c : Channel => c.penetrability K lib E := by
  induction channels with
  | nil => rfl
  | cons c channels ih => rw [List.map_cons, List.mapM_cons, List.mapM_cons, ih, (units_functions u).1]

theorem units_totalWidth (channels : List Channel) (r : Resonance) :
    totalWidth (u.constants K) lib (channels.map u.channel) (u.resonance r)
      = Units.scaled u.energy (totalWidth K lib channels r) := by
  rw [totalWidth_list, totalWidth_list]
  change ((channels.map u.channel).mapM fun c : Channel => c.penetrability (u.constants K) lib (u.energy * r.energy)).map _ = _
  rw [units_mapM]
  cases channels.mapM fun c : Channel => c.penetrability K lib r.energy with
  | error e => rfl
  | ok P =>
    change Except.ok _ = Except.ok _
    congr 1
    change (List.zipWith (fun gamma p => 2 * p * gamma * gamma) (r.widths.map fun x => Real.sqrt u.energy * x) P).foldl
      (· + ·) (2 * (Real.sqrt u.energy * r.eliminated) * (Real.sqrt u.energy * r.eliminated)) = _
    have hsq : ∀ x : ℝ, Real.sqrt u.energy * x * (Real.sqrt u.energy * x) = u.energy * (x * x) := by
      intro x
      rw [mul_mul_mul_comm, Real.mul_self_sqrt u.energy_pos.le]
    rw [mul_assoc, hsq, mul_assoc 2 r.eliminated]
    generalize r.eliminated * r.eliminated = z
    have h2 : 2 * (u.energy * z) = u.energy * (2 * z) := by ring
    rw [h2]
    generalize 2 * z = z
    generalize r.widths = ws
    induction ws generalizing P z with
    | nil => rfl
    | cons x ws ih =>
      cases P with
      | nil => rfl
      | cons p P =>
        simp only [List.map_cons, List.zipWith_cons_cons, List.foldl_cons]
        have e := ih P (z + 2 * p * x * x)
        simp only at e
        rw [← e]
        congr 1
        rw [mul_assoc (2 * p), hsq]
        ring

theorem units_gridPoints (channels : List Channel) (rs : List Resonance) :
    gridPoints (u.constants K) lib (channels.map u.channel) (rs.map u.resonance)
      = (gridPoints K lib channels rs).map fun l => l.map (u.energy * ·) := by
  induction rs with
  | nil => rfl
  | cons r rs ih =>
    rw [List.map_cons]
    unfold gridPoints
    rw [ih, units_totalWidth]
    have hpos : (u.resonance r).energy > 0 ↔ r.energy > 0 := by
      change 0 < u.energy * r.energy ↔ _
      exact mul_pos_iff_of_pos_left u.energy_pos
    by_cases h : r.energy > 0
    · rw [if_pos h, if_pos (hpos.mpr h)]
      cases totalWidth K lib channels r with
      | error e => rfl
      | ok x =>
        cases gridPoints K lib channels rs with
        | error e => rfl
        | ok l =>
          change Except.ok ((u.energy * r.energy - 0.5 * (u.energy * x)) :: (u.energy * r.energy) ::
            (u.energy * r.energy + 0.5 * (u.energy * x)) :: l.map (u.energy * ·))
            = Except.ok ((u.energy * (r.energy - 0.5 * x)) :: (u.energy * r.energy) ::
              (u.energy * (r.energy + 0.5 * x)) :: l.map (u.energy * ·))
          congr 2
          · ring
          · congr 2
            ring
    · rw [if_neg h, if_neg (fun h0 => h (hpos.mp h0))]

/-- C92: the energy grid of a group is the converted grid. -/
theorem C92_group_grid {g g' : SpinGroup} (h : Converted u g g') :
    g'.grid (u.constants K) lib = (g.grid K lib).map fun l => l.map (u.energy * ·) := by
  unfold SpinGroup.grid
  rw [h.1, h.2, units_gridPoints]
  cases gridPoints K lib g.channels g.table.resonances with
  | error e => rfl
  | ok l =>
    change Except.ok (sortUnique (l.map (u.energy * ·))) = Except.ok ((sortUnique l).map (u.energy * ·))
    rw [sortUnique_scaled u.energy_pos]

/-- C92: the energy grid of a compound system is the converted grid. -/
theorem C92_system_grid {s s' : CompoundSystem}
    (hs : List.Forall₂ (fun st st' => Converted u st.group st'.group) s s') :
    CompoundSystem.grid (u.constants K) lib s' = (CompoundSystem.grid K lib s).map fun l => l.map (u.energy * ·) := by
  have key : (s'.mapM fun st : GroupState => st.group.grid (u.constants K) lib)
      = (s.mapM fun st : GroupState => st.group.grid K lib).map fun ls => ls.map fun l => l.map (u.energy * ·) := by
    induction hs with
    | nil => rfl
    | @cons st st' s s' h1 hs ih =>
      rw [List.mapM_cons, List.mapM_cons, ih, C92_group_grid u h1]
      cases st.group.grid K lib with
      | error e => rfl
      | ok l => cases s.mapM fun st : GroupState => st.group.grid K lib <;> rfl
  unfold CompoundSystem.grid
  rw [key]
  cases s.mapM fun st : GroupState => st.group.grid K lib with
  | error e => rfl
  | ok ls =>
    change Except.ok (sortUnique (ls.map fun l => l.map (u.energy * ·)).flatten)
      = Except.ok ((sortUnique ls.flatten).map (u.energy * ·))
    rw [← sortUnique_scaled u.energy_pos, List.map_flatten]

namespace Example

/-- Energies in milli-units, lengths in units of a tenth, masses in units of a half, charges in units of three. -/
noncomputable def units : Units :=
  ⟨1000, 10, 2, 1 / 3, by norm_num, by norm_num, by norm_num, by norm_num⟩

/-- The hypotheses of `C92_spin_group` can be met: neutrons with an elastic, a closed inelastic and a fission
channel. -/
example (lib : CoulombLibrary) (option : BoundaryOption) (cache : MatrixCache group.channels.length) :
    ∃ g', makeSpinGroup (group.channels.map units.channel)
        ⟨group.table.channels, group.table.resonances.map units.resonance⟩ = .ok g' ∧
      ∀ cache', ∃ m c c',
        group.evaluate option constants lib 2 cache (fun _ => none) = .ok (m, c) ∧
        g'.evaluate option (units.constants constants) lib 2000 cache' (fun _ => none)
          = .ok (fun id => (m id).map (100 * ·), c') := by
  obtain ⟨g', hg'⟩ := ((C92_construction units).2.2.2 group.channels group.table.channels group.table.resonances).mpr
    ⟨group, group_built⟩
  refine ⟨g', hg', fun cache' => ?_⟩
  obtain ⟨h1, h2, h3⟩ := SpinGroup.Built.of_make hg'
  obtain ⟨⟨m, c⟩, e⟩ := (C19_neutral_channels (option := option) (K := constants) (lib := lib) group_built neutralAt
    widths noPole cache (fun _ => none) (fun _ => none)).1
  obtain ⟨c', e'⟩ := (C92_spin_group units group_built h1 ⟨h2, by rw [h3]⟩ cache cache' (fun _ => none)).1 m c e
  refine ⟨m, c, c', e, ?_⟩
  have hE : units.energy * 2 = 2000 := by norm_num [units]
  have hL : units.length ^ 2 = 100 := by norm_num [units]
  rw [hE] at e'
  rw [← hL]
  exact e'

end Example

end Verif
