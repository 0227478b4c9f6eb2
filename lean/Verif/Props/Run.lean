import Verif.Lemmas.Run
import Verif.Props.Reconstructor
import Verif.Props.HardSphere

/-!
# Property C88: evaluations that throw

`Run` follows the code in its own order, with the lazily evaluated ranges, and keeps what was written
when an exception ends it.
-/

namespace Verif

section

variable {option : BoundaryOption} {K : Constants} {lib : CoulombLibrary} {E : ℝ}

/-! ## The two models agree on calls that return -/

/-- C88: the lazily evaluated code returns exactly when the eager model does, with the same map and the
same state of the object. -/
theorem C88_returns (s s' : CompoundSystem) (m m' : CrossSectionMap) (t t' : Str → Option ℂ) :
    (Run.system option K lib E s m = (.ok (), m', s') ↔
      CompoundSystem.evaluate option K lib E s m = .ok (m', s')) ∧
    (Run.systemTMatrix option K lib E s t = (.ok (), t', s') ↔
      CompoundSystem.evaluateTMatrix option K lib E s t = .ok (t', s')) :=
  ⟨Run.system_ok, Run.systemTMatrix_ok⟩

/-! ## Spin groups -/

/-- C88: a spin group that throws leaves the map of cross sections, or of T-matrix elements, as it
was. -/
theorem C88_spin_group (g : SpinGroup) (cache : MatrixCache g.channels.length) (m : CrossSectionMap)
    (t : Str → Option ℂ) :
    ((Run.spinGroup option K lib g E (m, cache)).1 = .error .throws →
      (Run.spinGroup option K lib g E (m, cache)).2.1 = m) ∧
    ((Run.spinGroupTMatrix option K lib g E (t, cache)).1 = .error .throws →
      (Run.spinGroupTMatrix option K lib g E (t, cache)).2.1 = t) := by
  constructor
  · intro h
    rcases hr : Run.spinGroup option K lib g E (m, cache) with ⟨o, m', c⟩
    rw [hr] at h
    simp only at h
    subst h
    exact Run.spinGroup_fails hr
  · intro h
    rcases hr : Run.spinGroupTMatrix option K lib g E (t, cache) with ⟨o, m', c⟩
    rw [hr] at h
    simp only at h
    subst h
    exact Run.spinGroupTMatrix_throws hr

/-- C88: a Breit-Wigner or unresolved spin group that throws leaves the map as it was. -/
theorem C88_legacy_group (g : BreitWigner.SpinGroup) (u : Unresolved.SpinGroup) (m : LegacyMap) :
    ((Run.singleLevel K lib E g m).1 = .error .throws → (Run.singleLevel K lib E g m).2.1 = m) ∧
    ((Run.multiLevel K lib E g m).1 = .error .throws → (Run.multiLevel K lib E g m).2.1 = m) ∧
    ((Run.unresolved K lib E u m).1 = .error .throws → (Run.unresolved K lib E u m).2.1 = m) := by
  refine ⟨fun h => ?_, fun h => ?_, fun h => ?_⟩
  · rcases hr : Run.singleLevel K lib E g m with ⟨o, m', c⟩
    rw [hr] at h
    simp only at h
    subst h
    exact Run.singleLevel_fails hr
  · rcases hr : Run.multiLevel K lib E g m with ⟨o, m', c⟩
    rw [hr] at h
    simp only at h
    subst h
    exact Run.multiLevel_fails hr
  · rcases hr : Run.unresolved K lib E u m with ⟨o, m', c⟩
    rw [hr] at h
    simp only at h
    subst h
    exact Run.unresolved_fails hr

/-! ## Compound systems -/

/-- C88, the part that holds for compound systems: when a system throws, the map has the contributions
of the spin groups before the one that throws, completely, and nothing else. The full claim, that the
map is as it was, fails: `C88_map_changed`. -/
theorem C88_system_partial {s s' : CompoundSystem} {m m' : CrossSectionMap}
    (h : Run.system option K lib E s m = (.error .throws, m', s')) :
    ∃ before failing after before', s = before ++ failing :: after ∧
      CompoundSystem.evaluate option K lib E before m = .ok (m', before') ∧
      (Run.spinGroup option K lib failing.group E (m', failing.cache)).1 = .error .throws :=
  Run.system_fails h

/-- C88: a compound system with one spin group that throws leaves the map as it was. -/
theorem C88_one_group {g : GroupState} {s' : CompoundSystem} {m m' : CrossSectionMap}
    (h : Run.system option K lib E [g] m = (.error .throws, m', s')) : m' = m := by
  obtain ⟨b, f, t, b', h1, h2, -⟩ := C88_system_partial h
  cases b with
  | nil => exact (congrArg Prod.fst (Except.ok.inj h2)).symm
  | cons c b => simp at h1

/-- C88: after a call that returned or threw, or any other number of calls, a system gives the outcome
it would have given before. -/
theorem C88_usable (s : CompoundSystem) (E' : ℝ) (m m' : CrossSectionMap) (t t' : Str → Option ℂ) :
    CompoundSystem.evaluate option K lib E' (Run.system option K lib E s m).2.2 m'
      = CompoundSystem.evaluate option K lib E' s m' ∧
    CompoundSystem.evaluateTMatrix option K lib E' (Run.system option K lib E s m).2.2 t'
      = CompoundSystem.evaluateTMatrix option K lib E' s t' ∧
    CompoundSystem.evaluate option K lib E' (Run.systemTMatrix option K lib E s t).2.2 m'
      = CompoundSystem.evaluate option K lib E' s m' ∧
    CompoundSystem.evaluateTMatrix option K lib E' (Run.systemTMatrix option K lib E s t).2.2 t'
      = CompoundSystem.evaluateTMatrix option K lib E' s t' :=
  have h1 := C23_system (option := option) (K := K) (lib := lib)
    (Run.system_groups (option := option) (K := K) (lib := lib) (E := E) s m) E' m' t'
  have h2 := C23_system (option := option) (K := K) (lib := lib)
    (Run.systemTMatrix_groups (option := option) (K := K) (lib := lib) (E := E) s t) E' m' t'
  ⟨h1.1, h1.2, h2.1, h2.2⟩

end

/-! ## Legacy systems -/

section Legacy

variable {K : Constants} {lib : CoulombLibrary} {E : ℝ}

theorem getLMax_attained {G : Type} (channel : G → Channel) {groups : List G} (h : groups ≠ []) :
    ∃ g ∈ groups, LegacySystem.getLMax channel groups = (channel g).numbers.l := by
  cases groups with
  | nil => exact absurd rfl h
  | cons g gs =>
    unfold LegacySystem.getLMax
    have key : ∀ (gs : List G) (a : ℕ), gs.foldl (fun m h => max m (channel h).numbers.l) a = a ∨
        ∃ g ∈ gs, gs.foldl (fun m h => max m (channel h).numbers.l) a = (channel g).numbers.l := by
      intro gs
      induction gs with
      | nil => exact fun a => Or.inl rfl
      | cons b gs ih =>
        intro a
        rw [List.foldl_cons]
        rcases ih (max a (channel b).numbers.l) with h | ⟨c, hc, h⟩
        · rcases max_choice a (channel b).numbers.l with h' | h'
          · exact Or.inl (by rw [h, h'])
          · exact Or.inr ⟨b, List.mem_cons_self .., by rw [h, h']⟩
        · exact Or.inr ⟨c, List.mem_cons_of_mem _ hc, h⟩
    rcases key gs (channel g).numbers.l with h | ⟨c, hc, h⟩
    · exact ⟨g, List.mem_cons_self .., h⟩
    · exact ⟨c, List.mem_cons_of_mem _ hc, h⟩

theorem potential_not_throws {ratio : ℝ} {lmax : ℕ} (h : lmax ≤ 4) :
    LegacySystem.potential lib ratio lmax ≠ .error .throws := by
  have hl (l : ℕ) (hl : l ≤ 4) : ∃ v, calculatePhaseShift lib .neutron l ratio 0 = .ok v := by
    interval_cases l <;> exact ⟨_, rfl⟩
  have hm : ∀ ls : List ℕ, (∀ l ∈ ls, l ≤ 4) →
      ∃ v, ls.mapM (fun l => calculatePhaseShift lib .neutron l ratio 0) = .ok v := by
    intro ls
    induction ls with
    | nil => exact fun _ => ⟨[], rfl⟩
    | cons a ls ih =>
      intro hls
      obtain ⟨v, hv⟩ := hl a (hls a (List.mem_cons_self ..))
      obtain ⟨vs, hvs⟩ := ih fun l hl => hls l (List.mem_cons_of_mem _ hl)
      refine ⟨v :: vs, ?_⟩
      rw [List.mapM_cons, hv, hvs]
      rfl
  obtain ⟨v, hv⟩ := hm (List.range (lmax + 1)) (by
    intro l hl
    have := List.mem_range.mp hl
    omega)
  unfold LegacySystem.potential
  rw [hv]
  intro h
  cases h

variable {G : Type} {run : G → LegacyMap → Outcome Unit × LegacyMap × G}
  {step : G → LegacyMap → Outcome (LegacyMap × G)} {channel : G → Channel}

/-- A system whose constructor accepted its groups only throws in one of them: the calculation of
potential scattering at the end does not. -/
theorem legacySystem_throws
    (hok : ∀ g m m' g', run g m = (.ok (), m', g') ↔ step g m = .ok (m', g'))
    (hfail : ∀ g m e m' g', run g m = (.error e, m', g') → m' = m)
    (hchannel : ∀ g m, channel (run g m).2.2 = channel g)
    (hphi : ∀ g m m' g', step g m = .ok (m', g') → ∃ phi, (channel g).phaseShift K lib E = .ok phi)
    {groups : List G} {s s' : LegacySystem G} (hmake : LegacySystem.make channel groups = .ok s)
    (htype : ∀ g ∈ groups, (channel g).type = .neutron) {m m' : LegacyMap}
    (h : Run.legacySystem K lib channel run E s m = (.error .throws, m', s')) :
    ∃ before failing after before', groups = before ++ failing :: after ∧
      LegacySystem.evaluateGroups step before m = .ok (m', before') ∧
      (run failing m').1 = .error .throws := by
  have hs : s = ⟨groups, LegacySystem.getLMax channel groups⟩ := by
    unfold LegacySystem.make at hmake
    simp only [bind, Except.bind] at hmake
    split at hmake
    · cases hmake
    · exact (Except.ok.inj hmake).symm
  subst hs
  unfold Run.legacySystem at h
  rcases hg : Run.legacyGroups run groups m with ⟨o, m1, gs⟩
  simp only [hg] at h
  cases o with
  | error e =>
    simp only [Prod.mk.injEq, Except.error.injEq] at h
    obtain ⟨rfl, rfl, -⟩ := h
    exact Run.legacyGroups_fails hok hfail hg
  | ok u =>
    exfalso
    have hmap := Run.legacyGroups_map (f := channel) hchannel groups m
    rw [hg] at hmap
    simp only at hmap
    -- every group has a phase shift
    have hall : ∀ g ∈ groups, ∃ phi, (channel g).phaseShift K lib E = .ok phi := by
      have : ∀ (gs gs' : List G) (m m' : LegacyMap),
          LegacySystem.evaluateGroups step gs m = .ok (m', gs') →
          ∀ g ∈ gs, ∃ phi, (channel g).phaseShift K lib E = .ok phi := by
        intro gs
        induction gs with
        | nil => exact fun _ _ _ _ g hg => by cases hg
        | cons a gs ih =>
          intro gs' m m' hev g hgm
          simp only [LegacySystem.evaluateGroups, bind, Except.bind] at hev
          cases ha : step a m with
          | error e => rw [ha] at hev; cases hev
          | ok v =>
            obtain ⟨m1, a1⟩ := v
            rw [ha] at hev
            simp only at hev
            rcases List.mem_cons.mp hgm with rfl | hgm
            · exact hphi _ _ _ _ ha
            · cases hr : LegacySystem.evaluateGroups step gs m1 with
              | error e => rw [hr] at hev; cases hev
              | ok w => exact ih _ _ _ hr g hgm
      exact this _ _ _ _ ((Run.legacyGroups_ok hok).mp hg)
    cases gs with
    | nil => cases h
    | cons first rest =>
      simp only at h
      cases groups with
      | nil => simp at hmap
      | cons g0 gs0 =>
        simp only [List.map_cons, List.cons.injEq] at hmap
        obtain ⟨phi, hphi0⟩ := hall g0 (List.mem_cons_self ..)
        rw [hmap.1] at h
        unfold Channel.phaseShift at hphi0
        simp only [bind, Except.bind] at hphi0 h
        cases heta : (channel g0).eta K E with
        | error e => rw [heta] at hphi0; cases hphi0
        | ok eta =>
          rw [heta] at hphi0
          cases hrad : (channel g0).radii.phaseShift E with
          | error e => rw [hrad] at hphi0; cases hphi0
          | ok radius =>
            rw [hrad] at h
            simp only at h
            obtain ⟨g1, hg1, hl⟩ := getLMax_attained channel (groups := g0 :: gs0) (by simp)
            have h4 : LegacySystem.getLMax channel (g0 :: gs0) ≤ 4 := by
              rw [hl]
              by_contra hgt
              obtain ⟨phi1, hphi1⟩ := hall g1 hg1
              unfold Channel.phaseShift at hphi1
              simp only [bind, Except.bind] at hphi1
              cases heta1 : (channel g1).eta K E with
              | error e => rw [heta1] at hphi1; cases hphi1
              | ok eta1 =>
                rw [heta1] at hphi1
                cases hrad1 : (channel g1).radii.phaseShift E with
                | error e => rw [hrad1] at hphi1; cases hphi1
                | ok radius1 =>
                  rw [hrad1, htype g1 hg1] at hphi1
                  simp only at hphi1
                  obtain ⟨k, hk⟩ : ∃ k, (channel g1).numbers.l = k + 5 :=
                    ⟨(channel g1).numbers.l - 5, by omega⟩
                  rw [hk] at hphi1
                  cases hphi1
            split at h
            · rename_i hk
              split at hk
              · have := Except.error.inj hk
                subst this
                simp at h
              · rename_i e hk0
                have hp := potential_not_throws (lib := lib)
                  (ratio := (channel g0).waveNumber K E * radius) h4
                cases hpv : LegacySystem.potential lib ((channel g0).waveNumber K E * radius)
                    (LegacySystem.getLMax channel (g0 :: gs0)) with
                | error e' =>
                  rw [hpv] at hk
                  simp only [Except.error.injEq] at hk
                  subst hk
                  simp only [Prod.mk.injEq, Except.error.injEq] at h
                  rw [hpv, h.1] at hp
                  exact hp rfl
                | ok v =>
                  rw [hpv] at hk
                  cases hk
            · cases h

theorem slbw_phase {g g' : BreitWigner.SpinGroup} {m m' : LegacyMap}
    (h : g.evaluateSLBW K lib E m = .ok (m', g')) : ∃ phi, g.channel.phaseShift K lib E = .ok phi := by
  unfold BreitWigner.SpinGroup.evaluateSLBW at h
  simp only [bind, Except.bind] at h
  split at h
  · cases h
  split at h
  · cases h
  split at h
  · cases h
  split at h
  · cases h
  rename_i phi hphi
  exact ⟨phi, hphi⟩

theorem mlbw_phase {g g' : BreitWigner.SpinGroup} {m m' : LegacyMap}
    (h : g.evaluateMLBW K lib E m = .ok (m', g')) : ∃ phi, g.channel.phaseShift K lib E = .ok phi := by
  unfold BreitWigner.SpinGroup.evaluateMLBW at h
  simp only [bind, Except.bind] at h
  cases hs : g.evaluateSLBW K lib E m with
  | error e => rw [hs] at h; cases h
  | ok v => exact slbw_phase (m' := v.1) (g' := v.2) hs

theorem unresolved_phase {g g' : Unresolved.SpinGroup} {m m' : LegacyMap}
    (h : g.evaluate K lib E m = .ok (m', g')) : ∃ phi, g.channel.phaseShift K lib E = .ok phi := by
  unfold Unresolved.SpinGroup.evaluate at h
  simp only [bind, Except.bind] at h
  split at h
  · cases h
  split at h
  · cases h
  rename_i phi hphi
  exact ⟨phi, hphi⟩

/-- C88, the part that holds for Breit-Wigner systems: the map has the contributions of the groups
before the one that throws, completely, and nothing else. -/
theorem C88_breitWigner_partial {groups : List BreitWigner.SpinGroup}
    {s s' : LegacySystem BreitWigner.SpinGroup}
    (hmake : LegacySystem.make BreitWigner.SpinGroup.channel groups = .ok s)
    (htype : ∀ g ∈ groups, g.channel.type = .neutron) {m m' : LegacyMap} :
    (Run.legacySystem K lib BreitWigner.SpinGroup.channel (Run.singleLevel K lib E) E s m
        = (.error .throws, m', s') →
      ∃ before failing after before', groups = before ++ failing :: after ∧
        LegacySystem.evaluateGroups (fun g m => g.evaluateSLBW K lib E m) before m
          = .ok (m', before') ∧
        (Run.singleLevel K lib E failing m').1 = .error .throws) ∧
    (Run.legacySystem K lib BreitWigner.SpinGroup.channel (Run.multiLevel K lib E) E s m
        = (.error .throws, m', s') →
      ∃ before failing after before', groups = before ++ failing :: after ∧
        LegacySystem.evaluateGroups (fun g m => g.evaluateMLBW K lib E m) before m
          = .ok (m', before') ∧
        (Run.multiLevel K lib E failing m').1 = .error .throws) :=
  ⟨legacySystem_throws (fun _ _ _ _ => Run.singleLevel_ok) (fun _ _ _ _ _ => Run.singleLevel_fails)
      (fun g m => (Run.singleLevel_content g m).1) (fun _ _ _ _ => slbw_phase) hmake htype,
    legacySystem_throws (fun _ _ _ _ => Run.multiLevel_ok) (fun _ _ _ _ _ => Run.multiLevel_fails)
      (fun g m => (Run.multiLevel_content g m).1) (fun _ _ _ _ => mlbw_phase) hmake htype⟩

/-- C88, the part that holds for unresolved resonances. -/
theorem C88_unresolved_partial {groups : List Unresolved.SpinGroup}
    {s s' : LegacySystem Unresolved.SpinGroup}
    (hmake : LegacySystem.make Unresolved.SpinGroup.channel groups = .ok s)
    (htype : ∀ g ∈ groups, g.channel.type = .neutron) {m m' : LegacyMap}
    (h : Run.legacySystem K lib Unresolved.SpinGroup.channel (Run.unresolved K lib E) E s m
        = (.error .throws, m', s')) :
    ∃ before failing after before', groups = before ++ failing :: after ∧
      LegacySystem.evaluateGroups (fun g m => g.evaluate K lib E m) before m = .ok (m', before') ∧
      (Run.unresolved K lib E failing m').1 = .error .throws :=
  legacySystem_throws (fun _ _ _ _ => Run.unresolved_ok) (fun _ _ _ _ _ => Run.unresolved_fails)
    (fun g m => congrArg _ (Run.unresolved_content g m)) (fun _ _ _ _ => unresolved_phase)
    hmake htype h

end Legacy

/-! ## Reconstructors -/

section

variable {K : Constants} {lib : CoulombLibrary}

theorem variant_ok {E : ℝ} {s s' : SystemVariant} {m : ReactionMap} :
    Run.variant K lib E s = (.ok m, s') ↔ s.evaluate K lib E = .ok (m, s') := by
  cases s with
  | singleLevel s =>
    simp only [Run.variant, SystemVariant.evaluate, bind, Except.bind]
    rcases h : Run.legacySystem K lib BreitWigner.SpinGroup.channel (Run.singleLevel K lib E) E s
      (fun _ => none) with ⟨o, m1, s1⟩
    cases o with
    | error e =>
      cases hv : s.evaluate K lib BreitWigner.SpinGroup.channel (fun g m => g.evaluateSLBW K lib E m) E
          (fun _ => none) with
      | error e => simp [Except.map]
      | ok v =>
        rw [(Run.legacySystem_ok (fun _ _ _ _ => Run.singleLevel_ok)).mpr hv] at h
        cases h
    | ok u =>
      rw [(Run.legacySystem_ok (fun _ _ _ _ => Run.singleLevel_ok)).mp h]
      simp [Except.map, pure, Except.pure]
  | multiLevel s =>
    simp only [Run.variant, SystemVariant.evaluate, bind, Except.bind]
    rcases h : Run.legacySystem K lib BreitWigner.SpinGroup.channel (Run.multiLevel K lib E) E s
      (fun _ => none) with ⟨o, m1, s1⟩
    cases o with
    | error e =>
      cases hv : s.evaluate K lib BreitWigner.SpinGroup.channel (fun g m => g.evaluateMLBW K lib E m) E
          (fun _ => none) with
      | error e => simp [Except.map]
      | ok v =>
        rw [(Run.legacySystem_ok (fun _ _ _ _ => Run.multiLevel_ok)).mpr hv] at h
        cases h
    | ok u =>
      rw [(Run.legacySystem_ok (fun _ _ _ _ => Run.multiLevel_ok)).mp h]
      simp [Except.map, pure, Except.pure]
  | shiftFactor s =>
    simp only [Run.variant, SystemVariant.evaluate, bind, Except.bind]
    rcases h : Run.system .shiftFactor K lib E s (fun _ => none) with ⟨o, m1, s1⟩
    cases o with
    | error e =>
      cases hv : CompoundSystem.evaluate .shiftFactor K lib E s (fun _ => none) with
      | error e => simp [Except.map]
      | ok v =>
        rw [Run.system_ok.mpr hv] at h
        cases h
    | ok u =>
      rw [Run.system_ok.mp h]
      simp [Except.map, pure, Except.pure]
  | constant s =>
    simp only [Run.variant, SystemVariant.evaluate, bind, Except.bind]
    rcases h : Run.system .constant K lib E s (fun _ => none) with ⟨o, m1, s1⟩
    cases o with
    | error e =>
      cases hv : CompoundSystem.evaluate .constant K lib E s (fun _ => none) with
      | error e => simp [Except.map]
      | ok v =>
        rw [Run.system_ok.mpr hv] at h
        cases h
    | ok u =>
      rw [Run.system_ok.mp h]
      simp [Except.map, pure, Except.pure]
  | unresolved s =>
    simp only [Run.variant, SystemVariant.evaluate, bind, Except.bind]
    rcases h : Run.legacySystem K lib Unresolved.SpinGroup.channel (Run.unresolved K lib E) E s
      (fun _ => none) with ⟨o, m1, s1⟩
    cases o with
    | error e =>
      cases hv : s.evaluate K lib Unresolved.SpinGroup.channel (fun g m => g.evaluate K lib E m) E
          (fun _ => none) with
      | error e => simp [Except.map]
      | ok v =>
        rw [(Run.legacySystem_ok (fun _ _ _ _ => Run.unresolved_ok)).mpr hv] at h
        cases h
    | ok u =>
      rw [(Run.legacySystem_ok (fun _ _ _ _ => Run.unresolved_ok)).mp h]
      simp [Except.map, pure, Except.pure]

theorem variant_same {E : ℝ} (s : SystemVariant) : (Run.variant K lib E s).2.Same s := by
  have hbw1 (g : BreitWigner.SpinGroup) (m : LegacyMap) :
      BreitWigner.content (Run.singleLevel K lib E g m).2.2 = BreitWigner.content g := by
    obtain ⟨h1, h2, h3⟩ := Run.singleLevel_content (K := K) (lib := lib) (E := E) g m
    simp only [BreitWigner.content, h1, h2, h3]
  have hbw2 (g : BreitWigner.SpinGroup) (m : LegacyMap) :
      BreitWigner.content (Run.multiLevel K lib E g m).2.2 = BreitWigner.content g := by
    obtain ⟨h1, h2, h3⟩ := Run.multiLevel_content (K := K) (lib := lib) (E := E) g m
    simp only [BreitWigner.content, h1, h2, h3]
  cases s with
  | singleLevel s =>
    have := Run.legacySystem_map (K := K) (lib := lib) (channel := BreitWigner.SpinGroup.channel)
      hbw1 (E := E) s (fun _ => none)
    exact .singleLevel this.1 this.2
  | multiLevel s =>
    have := Run.legacySystem_map (K := K) (lib := lib) (channel := BreitWigner.SpinGroup.channel)
      hbw2 (E := E) s (fun _ => none)
    exact .multiLevel this.1 this.2
  | shiftFactor s => exact .shiftFactor (Run.system_groups s _)
  | constant s => exact .constant (Run.system_groups s _)
  | unresolved s =>
    have := Run.legacySystem_map (K := K) (lib := lib) (channel := Unresolved.SpinGroup.channel)
      (f := id) (fun g m => Run.unresolved_content (K := K) (lib := lib) (E := E) g m) (E := E) s
      (fun _ => none)
    simp only [List.map_id] at this
    have h : (Run.variant K lib E (.unresolved s)).2 = .unresolved s := by
      have heq : (Run.legacySystem K lib Unresolved.SpinGroup.channel (Run.unresolved K lib E) E s
          (fun _ => none)).2.2 = s := by
        rcases hs : (Run.legacySystem K lib Unresolved.SpinGroup.channel (Run.unresolved K lib E) E s
          (fun _ => none)).2.2 with ⟨gs, l⟩
        rw [hs] at this
        obtain ⟨h1, h2⟩ := this
        simp only at h1 h2
        rw [h1, h2]
      exact congrArg SystemVariant.unresolved heq
    rw [h]
    exact .unresolved s

theorem reconstructor_ok {r r' : Reconstructor} {E : ℝ} {m : ReactionMap} :
    Run.reconstructor K lib r E = (.ok m, r') ↔ r.call K lib E = .ok (m, r') := by
  unfold Run.reconstructor Reconstructor.call
  split
  · simp only [bind, Except.bind]
    rcases h : Run.variant K lib E r.system with ⟨o, s⟩
    cases o with
    | error e =>
      cases hv : r.system.evaluate K lib E with
      | error e => simp
      | ok v =>
        rw [variant_ok.mpr hv] at h
        cases h
    | ok m1 =>
      rw [variant_ok.mp h]
      simp [pure, Except.pure]
  · simp

theorem reconstructor_reachable {r t : Reconstructor} (h : Reconstructor.Reachable K lib r t) (E : ℝ) :
    Reconstructor.Reachable K lib r (Run.reconstructor K lib t E).2 := by
  rcases hr : Run.reconstructor K lib t E with ⟨o, t'⟩
  cases o with
  | ok m => exact h.call (reconstructor_ok.mp hr)
  | error e =>
    have hc : ∃ e, t.call K lib E = .error e := by
      cases hc : t.call K lib E with
      | error e => exact ⟨e, rfl⟩
      | ok v =>
        rw [reconstructor_ok.mpr hc] at hr
        cases hr
    obtain ⟨e', hc⟩ := hc
    have hsame : t'.lower = t.lower ∧ t'.upper = t.upper ∧ t'.system.Same t.system := by
      have h2 := congrArg Prod.snd hr
      unfold Run.reconstructor at h2
      split at h2
      · simp only at h2
        subst h2
        exact ⟨rfl, rfl, variant_same _⟩
      · simp only at h2
        subst h2
        exact ⟨rfl, rfl, .refl _⟩
    exact h.failed hc hsame.1 hsame.2.1 hsame.2.2

/-- C88: a caller who evaluates a reconstructor at one energy after the other, catching exceptions, gets
at each energy the map that a reconstructor that was never used before would return, and a failure
exactly where that would fail. -/
theorem C88_session (r : Reconstructor) (energies : List ℝ) :
    List.Forall₂ (fun E outcome => ∀ m, outcome = .ok m ↔ ∃ t, r.call K lib E = .ok (m, t))
      energies (Run.session K lib r energies) := by
  have key : ∀ (energies : List ℝ) (t : Reconstructor), Reconstructor.Reachable K lib r t →
      List.Forall₂ (fun E outcome => ∀ m, outcome = .ok m ↔ ∃ t, r.call K lib E = .ok (m, t))
        energies (Run.session K lib t energies) := by
    intro energies
    induction energies with
    | nil => exact fun _ _ => .nil
    | cons E rest ih =>
      intro t ht
      refine .cons (fun m => ?_) (ih _ (reconstructor_reachable ht E))
      have hfst : (t.call K lib E).map Prod.fst = (r.call K lib E).map Prod.fst := by
        by_cases hin : r.lower ≤ E ∧ E ≤ r.upper
        · rw [(Reconstructor.C41_values ht E).1 hin.1 hin.2,
            (Reconstructor.C41_values (.start : Reconstructor.Reachable K lib r r) E).1 hin.1 hin.2]
        · have hout : E < r.lower ∨ r.upper < E := by
            by_contra hno
            push Not at hno
            exact hin hno
          rw [(Reconstructor.C41_values ht E).2 hout,
            (Reconstructor.C41_values (.start : Reconstructor.Reachable K lib r r) E).2 hout]
      have hrun : (Run.reconstructor K lib t E).1 = .ok m ↔ ∃ t', t.call K lib E = .ok (m, t') := by
        constructor
        · intro h
          exact ⟨(Run.reconstructor K lib t E).2, reconstructor_ok.mp (Prod.ext h rfl)⟩
        · rintro ⟨t', h⟩
          rw [reconstructor_ok.mpr h]
      have hmap (x : Outcome (ReactionMap × Reconstructor)) :
          (∃ t', x = .ok (m, t')) ↔ x.map Prod.fst = .ok m := by
        cases x with
        | error e => simp [Except.map]
        | ok v =>
          obtain ⟨a, b⟩ := v
          simp [Except.map]
      exact hrun.trans ((hmap _).trans (hfst ▸ (hmap _).symm))
  exact key energies r .start

end

/-! ## The map after an exception: a counterexample, and examples -/

namespace Example

/-- Elastic scattering with an orbital angular momentum for which there is no penetrability. -/
noncomputable def hwave : Channel :=
  makeChannel .neutron pair pair pair.id 0 ⟨5, 1 / 2, 11 / 2, -1⟩ radii 0

noncomputable def high : SpinGroup := ⟨[hwave], [hwave.reaction] ++
  [.transition pair.id "capture".toList], determineIncidentChannels [hwave], ⟨[hwave.id], []⟩⟩

theorem high_built : high.Built := by
  have hcons : Spec.ConsistentGroup [hwave] ⟨[hwave.id], []⟩ := by
    refine ⟨by simp, ?_, by simp, ?_, ⟨hwave, by simp, rfl⟩, rfl⟩
    · intro c hc d hd
      rw [List.mem_singleton.mp hc, List.mem_singleton.mp hd]
    · intro c hc d hd
      rw [List.mem_singleton.mp hc, List.mem_singleton.mp hd]
      exact ⟨rfl, rfl⟩
  obtain ⟨g, hg⟩ := (C24_accepted _ _).mpr hcons
  obtain ⟨h1, h2, -⟩ := C24_contents hg
  obtain ⟨h3, first, rest, h4, h5, -⟩ := (SpinGroup.Built.of_make hg).1.incident
  have : g = high := by
    obtain ⟨c, r, i, t⟩ := g
    simp only at h1 h2 h3 h4 h5
    subst h1 h2 h3 h5
    obtain ⟨rfl, -⟩ := List.cons.inj h4
    rfl
  rw [← this]
  exact (SpinGroup.Built.of_make hg).1

/-- A system with two spin groups, which its constructor accepts. -/
noncomputable def interrupted : CompoundSystem := [⟨group, ⟨0, 0, 0⟩⟩, ⟨high, ⟨0, 0, 0⟩⟩]

theorem interrupted_made : makeCompoundSystem interrupted = .ok interrupted := by
  have h : verifySpinGroups (interrupted.map GroupState.group) = .ok () := by
    unfold verifySpinGroups
    rw [if_neg (by simp [interrupted]), if_neg, if_neg]
    · rintro ⟨g, hg, c, hc, h⟩
      simp only [interrupted, List.map_cons, List.map_nil, List.mem_cons, List.not_mem_nil,
        or_false] at hg
      rcases hg with rfl | rfl
      · have : c = elastic := by simpa [group, channels, eq_comm] using hc
        subst this
        revert h
        norm_num [interrupted, group, channels, high, elastic, hwave, makeChannel]
      · have : c = hwave := by simpa [high, eq_comm] using hc
        subst this
        revert h
        norm_num [interrupted, group, channels, high, elastic, hwave, makeChannel]
    · rintro ⟨g, hg, h⟩
      simp only [interrupted, List.map_cons, List.map_nil, List.mem_cons, List.not_mem_nil,
        or_false] at hg
      rcases hg with rfl | rfl
      · simp [group, channels] at h
      · simp [high] at h
  unfold makeCompoundSystem
  rw [h]

theorem high_throws (option : BoundaryOption) (lib : CoulombLibrary)
    (cache : MatrixCache high.channels.length) (m : CrossSectionMap) :
    (Run.spinGroup option constants lib high 2 (m, cache)).1 = .error .throws := by
  have hP : hwave.penetrability constants lib 2 = .error .throws := rfl
  have hd : Run.diagonal option constants lib 2 hwave = .error .throws := by
    cases option <;> rfl
  have hl (c : MatrixCache high.channels.length) :
      Run.lmatrix option constants lib high.channels 2 c = (.error .throws, { c with L := 0 }) := by
    unfold Run.lmatrix
    rw [Exec.modify_bind]
    have hf : List.finRange high.channels.length = [(0 : Fin 1)] := rfl
    rw [hf]
    exact Exec.forEach_head (Exec.lift_bind_error hd _ _)
  unfold Run.spinGroup
  simp only
  have hrl : ∃ c, Run.rlmatrix option constants lib high.channels high.table.resonances 2 cache
      = (.error .throws, c) := by
    rw [Run.rlmatrix_eq (by simp [high])]
    generalize hg : Run.lmatrix option constants lib high.channels 2 _ = p
    have hg' := hg.symm.trans (hl _)
    subst hg'
    exact ⟨_, rfl⟩
  obtain ⟨c, hrl⟩ := hrl
  rw [hrl]

end Example

/-- C88 fails for the map: a compound system that its constructor accepts, of two spin groups each of
which was accepted, throws and leaves the contributions of its first group in the map of the caller. -/
theorem C88_map_changed (option : BoundaryOption) (lib : CoulombLibrary) :
    ∃ (s : CompoundSystem) (id : ReactionID), makeCompoundSystem s = .ok s ∧
      (∀ st ∈ s, st.group.Built) ∧
      (Run.system option Example.constants lib 2 s fun _ => none).1 = .error .throws ∧
      (Run.system option Example.constants lib 2 s fun _ => none).2.1 id ≠ none := by
  obtain ⟨⟨m1, c1⟩, h1⟩ := (Example.evaluates option lib ⟨0, 0, 0⟩ (fun _ => none) fun _ => none).1
  have hentry : ∃ id, m1 id ≠ none := by
    have hev : CompoundSystem.evaluate option Example.constants lib 2 [⟨Example.group, ⟨0, 0, 0⟩⟩]
        (fun _ => none) = .ok (m1, [⟨Example.group, c1⟩]) := by
      simp only [CompoundSystem.evaluate, bind, Except.bind, h1]
      rfl
    obtain ⟨id, hid⟩ := SystemVariant.rmatrix_entry (by simp) (by
      intro st hst
      rw [List.mem_singleton.mp hst]
      exact Example.group_built) hev
    exact ⟨id, Option.isSome_iff_ne_none.mp hid⟩
  obtain ⟨id, hid⟩ := hentry
  have h2 := Example.high_throws option lib ⟨0, 0, 0⟩ m1
  rcases hr : Run.spinGroup option Example.constants lib Example.high 2 (m1, ⟨0, 0, 0⟩) with ⟨o, m2, c2⟩
  rw [hr] at h2
  simp only at h2
  subst h2
  have h3 := Run.spinGroup_fails hr
  subst h3
  have hsys : Run.system option Example.constants lib 2 Example.interrupted (fun _ => none)
      = (.error .throws, m2, [⟨Example.group, c1⟩, ⟨Example.high, c2⟩]) := by
    simp only [Example.interrupted, Run.system]
    rw [Run.spinGroup_ok.mpr h1]
    simp only
    rw [hr]
  refine ⟨Example.interrupted, id, Example.interrupted_made, ?_, ?_, ?_⟩
  · intro st hst
    simp only [Example.interrupted, List.mem_cons, List.not_mem_nil, or_false] at hst
    rcases hst with rfl | rfl
    · exact Example.group_built
    · exact Example.high_built
  · rw [hsys]
  · rw [hsys]
    exact hid

/-- The hypotheses of `C88_breitWigner_partial` hold for a system of an s-wave group and one with an
orbital angular momentum of 5. -/
example (lib : CoulombLibrary) (m : LegacyMap) : ∃ groups s m' s',
    LegacySystem.make BreitWigner.SpinGroup.channel groups = .ok s ∧
    (∀ g ∈ groups, g.channel.type = .neutron) ∧
    Run.legacySystem Example.constants lib BreitWigner.SpinGroup.channel
      (Run.singleLevel Example.constants lib 2) 2 s m = (.error .throws, m', s') := by
  let high : BreitWigner.SpinGroup :=
    BreitWigner.makeSpinGroup Example.hwave [] 0 BreitWigner.Example.noCache
  obtain ⟨s, hs⟩ := (BreitWigner.C35_accepted BreitWigner.SpinGroup.channel
    [high, BreitWigner.Example.sGroup 1 []]).mpr
    ⟨by simp, by
      simp only [List.map_cons, List.map_nil, List.nodup_cons, List.mem_singleton, List.not_mem_nil,
        not_false_eq_true, List.nodup_nil, and_true]
      intro h
      exact absurd (congrArg Prod.fst h) (by decide)⟩
  have h2 : s = ⟨[high, BreitWigner.Example.sGroup 1 []],
      LegacySystem.getLMax BreitWigner.SpinGroup.channel
        [high, BreitWigner.Example.sGroup 1 []]⟩ := by
    unfold LegacySystem.make at hs
    simp only [bind, Except.bind] at hs
    split at hs
    · cases hs
    · exact (Except.ok.inj hs).symm
  refine ⟨_, s, m, s, hs, ?_, ?_⟩
  · intro g hg
    simp only [List.mem_cons, List.not_mem_nil, or_false] at hg
    rcases hg with rfl | rfl <;> rfl
  · subst h2
    have hP : Example.hwave.penetrability Example.constants lib 2 = .error .throws := rfl
    have h1 : Run.singleLevel Example.constants lib 2 high m = (.error .throws, m, high) := by
      unfold Run.singleLevel
      simp only [high, BreitWigner.makeSpinGroup, hP, bind, Except.bind]
    unfold Run.legacySystem
    simp only [Run.legacyGroups, h1]

end Verif
