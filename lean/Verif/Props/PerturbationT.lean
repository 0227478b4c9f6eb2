import Verif.Props.BoundaryChangeT
import Verif.Props.Distant

/-!
# Properties C80 and C86 for the T-matrix
-/

namespace Verif

open Complex Matrix Filter Topology

namespace Spec

/-- Two entries of maps of T-matrix elements: both absent, or both there and closer than `ε`. -/
def CloseElements (ε : ℝ) : Option ℂ → Option ℂ → Prop
  | some x, some y => ‖x - y‖ < ε
  | none, none => True
  | _, _ => False

end Spec

variable {option : BoundaryOption} {K : Constants} {lib : CoulombLibrary} {E : ℝ}

/-- What is needed of the resonances to evaluate the T-matrix. -/
structure Solvable (option : BoundaryOption) (channels : List Channel) (E : ℝ) (P S : Fin channels.length → ℝ)
    (rs : List Resonance) : Prop where
  widths : ∀ r ∈ rs, r.widths.length = channels.length
  noPole : ∀ r ∈ rs, ¬ (r.energy = E ∧ r.eliminated = 0)
  invertible : (Spec.levelDenominator option channels rs E P S).det ≠ 0

theorem tMatrix_of_level {channels : List Channel} {rs : List Resonance} {P S : Fin channels.length → ℝ}
    {ι : Type*} {F : Filter ι} {rs' : ι → List Resonance}
    (hR : Tendsto (fun x => Spec.rMatrix channels (rs' x) E) F (𝓝 (Spec.rMatrix channels rs E)))
    (hdet : (Spec.levelDenominator option channels rs E P S).det ≠ 0) {ε : ℝ} (hε : 0 < ε) :
    ∀ᶠ x in F, (Spec.levelDenominator option channels (rs' x) E P S).det ≠ 0 ∧
      ∀ c c', ‖Spec.tMatrix option channels (rs' x) E P S c c' - Spec.tMatrix option channels rs E P S c c'‖ < ε := by
  have hD : Tendsto (fun x => Spec.levelDenominator option channels (rs' x) E P S) F
      (𝓝 (Spec.levelDenominator option channels rs E P S)) := by
    unfold Spec.levelDenominator
    exact tendsto_const_nhds.sub (hR.mul tendsto_const_nhds)
  obtain ⟨h1, h2⟩ := inverse_tendsto hD hdet
  refine h1.and ?_
  rw [eventually_all]
  intro c
  rw [eventually_all]
  intro c'
  have : Tendsto (fun x => Spec.tMatrix option channels (rs' x) E P S c c') F
      (𝓝 (Spec.tMatrix option channels rs E P S c c')) := by
    simp only [Spec.tMatrix, Matrix.of_apply]
    exact (tendsto_const_nhds.mul (tendsto_matrix.mp (h2.mul hR) c c')).mul tendsto_const_nhds
  simpa only [dist_eq_norm] using Metric.tendsto_nhds.mp this ε hε

/-- As `Controls`, for the T-matrix. -/
structure ControlsT (option : BoundaryOption) (E : ℝ)
    (Rel : ℝ → List Channel → List Resonance → List Resonance → Prop) : Prop where
  mono : ∀ {δ δ' : ℝ}, δ ≤ δ' → ∀ {channels a b}, Rel δ channels a b → Rel δ' channels a b
  near : ∀ {channels : List Channel} {rs : List Resonance} {P S : Fin channels.length → ℝ},
    Solvable option channels E P S rs → ∀ {ε : ℝ}, 0 < ε →
    ∃ δ > 0, ∀ rs', Rel δ channels rs rs' → Solvable option channels E P S rs' ∧
      ∀ c c', ‖Spec.tMatrix option channels rs' E P S c c' - Spec.tMatrix option channels rs E P S c c'‖ < ε

theorem controlsT_more : ControlsT option E (Spec.MoreResonances E) where
  mono := by
    rintro δ δ' hle channels a b ⟨more, h1, h2, h3⟩
    exact ⟨more, h1, h2, h3.trans_le hle⟩
  near := by
    intro channels rs P S hs ε hε
    let total : List Resonance → ℝ := fun more => (more.map (Spec.strength E)).sum
    have hR : Tendsto (fun more => Spec.rMatrix channels (rs ++ more) E) (comap total (𝓝 0))
        (𝓝 (Spec.rMatrix channels rs E)) := by
      rw [tendsto_matrix]
      intro c c'
      rw [tendsto_iff_norm_sub_tendsto_zero]
      exact squeeze_zero (fun _ => norm_nonneg _) (fun more => rMatrix_more rs more c c') tendsto_comap
    obtain ⟨δ, hδ, hall⟩ := Metric.eventually_nhds_iff.mp (eventually_comap.mp
      (tMatrix_of_level hR hs.invertible hε))
    refine ⟨δ, hδ, ?_⟩
    rintro rs' ⟨more, hperm, hmore, hsum⟩
    have hd : dist (total more) 0 < δ := by
      rw [Real.dist_eq, sub_zero, abs_of_nonneg (total_nonneg E more)]
      exact hsum
    obtain ⟨k1, k2⟩ := hall hd more rfl
    have hRR := rMatrix_order (channels := channels) (E := E) hperm
    have hmem : ∀ r ∈ rs', r ∈ rs ∨ r ∈ more := fun r hr => List.mem_append.mp (hperm.mem_iff.mp hr)
    have hT : Spec.tMatrix option channels rs' E P S = Spec.tMatrix option channels (rs ++ more) E P S := by
      unfold Spec.tMatrix Spec.levelDenominator
      rw [hRR]
    refine ⟨⟨fun r hr => (hmem r hr).elim (hs.widths r) fun h => (hmore r h).1,
      fun r hr => (hmem r hr).elim (hs.noPole r) fun h => (hmore r h).2, ?_⟩, fun c c' => by rw [hT]; exact k2 c c'⟩
    unfold Spec.levelDenominator
    rw [hRR]
    exact k1

theorem controlsT_near : ControlsT option E fun δ _ => Spec.NearResonances δ where
  mono hle _ _ _ hab := hab.imp fun _ _ hr => ⟨hr.energy.trans_le hle, hr.eliminated.trans_le hle,
    hr.widths.imp fun _ _ hx => hx.trans_le hle⟩
  near := by
    intro channels rs P S hs ε hε
    let m := channels.length
    let p₀ := paramsOf rs.length m rs
    have hp : ∀ i, ¬ ((p₀ i).1 = E ∧ (p₀ i).2.1 = 0) := by
      intro i
      have : rs.getD i ⟨0, [], 0⟩ ∈ rs := by
        rw [getD_getElem i.isLt]
        exact List.getElem_mem _
      exact hs.noPole _ this
    let make : Params rs.length m → List Resonance := fun p =>
      List.ofFn fun i => ⟨(p i).1, List.ofFn (p i).2.2, (p i).2.1⟩
    have hmake : ∀ p, Spec.rMatrix channels (make p) E = paramR channels E p := by
      intro p
      rw [rMatrix_params (n := rs.length) (by simp [make])]
      congr 1
      funext i
      simp only [paramsOf, make]
      rw [getD_getElem (by simp)]
      simp only [List.getElem_ofFn, Fin.eta, Resonance.width]
      refine Prod.ext rfl (Prod.ext rfl (funext fun c => ?_))
      change (List.ofFn (p i).2.2).getD c 0 = _
      rw [getD_getElem (by simp [m])]
      simp
    have hR : Tendsto (fun p => Spec.rMatrix channels (make p) E) (𝓝 p₀)
        (𝓝 (Spec.rMatrix channels rs E)) := by
      simp only [hmake]
      rw [rMatrix_params rfl]
      exact paramR_tendsto hp
    have h4 : ∀ᶠ p in 𝓝 p₀, ∀ i, ¬ ((p i).1 = E ∧ (p i).2.1 = 0) := by
      rw [eventually_all]
      intro i
      have hi : Tendsto (fun p : Params rs.length m => p i) (𝓝 p₀) (𝓝 (p₀ i)) :=
        (continuous_apply i).tendsto p₀
      have hc : Continuous fun x : ℝ × ℝ × (Fin m → ℝ) => ((x.1 : ℂ) - E - I * (x.2.1 : ℂ) ^ 2) := by fun_prop
      filter_upwards [((hc.tendsto _).comp hi).eventually_ne (denominator_ne (hp i))] with p hpi h0
      apply hpi
      simp [Function.comp, h0.1, h0.2]
    obtain ⟨δ, hδ, hall⟩ := Metric.eventually_nhds_iff.mp ((tMatrix_of_level hR hs.invertible hε).and h4)
    refine ⟨δ, hδ, fun rs' hrs => ?_⟩
    have hlen : rs'.length = rs.length := hrs.length_eq.symm
    obtain ⟨⟨k1, k2⟩, k3⟩ := hall (paramsOf_near (n := rs.length) (m := m) hδ hrs)
    have hRR : Spec.rMatrix channels rs' E = Spec.rMatrix channels (make (paramsOf rs.length m rs')) E := by
      rw [hmake, rMatrix_params hlen]
    have hT : Spec.tMatrix option channels rs' E P S
        = Spec.tMatrix option channels (make (paramsOf rs.length m rs')) E P S := by
      unfold Spec.tMatrix Spec.levelDenominator
      rw [hRR]
    refine ⟨⟨?_, ?_, ?_⟩, fun c c' => by rw [hT]; exact k2 c c'⟩
    · intro r' hr'
      obtain ⟨i, hi, rfl⟩ := List.getElem_of_mem hr'
      have hnear := (List.forall₂_iff_get.mp hrs).2 i (hlen ▸ hi) hi
      have := hnear.widths.length_eq
      simp only [List.get_eq_getElem] at this
      rw [← this]
      exact hs.widths _ (List.getElem_mem _)
    · intro r' hr'
      obtain ⟨i, hi, rfl⟩ := List.getElem_of_mem hr'
      have := k3 ⟨i, hlen ▸ hi⟩
      simpa only [paramsOf, getD_getElem (d := (⟨0, [], 0⟩ : Resonance)) hi] using this
    · unfold Spec.levelDenominator
      rw [hRR]
      exact k1

variable {Rel : ℝ → List Channel → List Resonance → List Resonance → Prop}

theorem group_nearT (hRel : ControlsT option E Rel) {g : SpinGroup} (hg : g.Built)
    (harrow : ∀ c ∈ g.channels, ¬ ContainsArrow c.id) {cache cache' : MatrixCache g.channels.length}
    {start m : Str → Option ℂ} (h : g.evaluateTMatrix option K lib E cache start = .ok (m, cache'))
    {ε : ℝ} (hε : 0 < ε) :
    ∃ δ > 0, ∀ g' : SpinGroup, g'.Built → g'.channels = g.channels →
      Rel δ g.channels g.table.resonances g'.table.resonances →
      ∀ cache start', ∃ m' cache', g'.evaluateTMatrix option K lib E cache start' = .ok (m', cache') ∧
        ((∀ key, Spec.CloseElements ε (start' key) (start key)) → ∀ key, Spec.CloseElements ε (m' key) (m key)) := by
  obtain ⟨P, S, hP, hS, hnn, hwid, hdet, hel, hrest⟩ := evaluateTMatrix_ok hg harrow h
  obtain ⟨δ, hδ, hnear⟩ := hRel.near ⟨hwid, evaluateTMatrix_noPole h, hdet⟩ hε
  refine ⟨δ, hδ, ?_⟩
  rintro ⟨channels', reactions', incident', table'⟩ hg' hch hrs cache₁ start'
  dsimp only at hch hrs
  subst hch
  obtain ⟨hs', hclose⟩ := hnear _ hrs
  obtain ⟨⟨m', c'⟩, e'⟩ := evaluateTMatrix_succeeds (option := option)
    (g := ⟨g.channels, reactions', incident', table'⟩) hP hS hnn hs'.widths hs'.noPole hs'.invertible cache₁ start'
  obtain ⟨P₂, S₂, hP₂, hS₂, -, -, -, hel₂, hrest₂⟩ := evaluateTMatrix_ok hg' harrow e'
  dsimp only at hP₂ hS₂ hel₂ hrest₂
  have eP : P₂ = P := funext fun i => Except.ok.inj ((hP₂ i).symm.trans (hP i))
  subst eP
  have eS : Spec.tMatrix option g.channels table'.resonances E P₂ S₂
      = Spec.tMatrix option g.channels table'.resonances E P₂ S := by
    revert hS hS₂
    cases option with
    | shiftFactor => exact fun _ _ => rfl
    | constant =>
      intro hS hS₂
      have : S₂ = S := funext fun i => Except.ok.inj ((hS₂ rfl i).symm.trans (hS rfl i))
      rw [this]
  refine ⟨m', c', e', fun hst key => ?_⟩
  by_cases hk : ∃ c ∈ g.channels, ∃ c' ∈ g.channels, key = tMatrixKey c.id c'.id
  · obtain ⟨c, hc, d, hd, rfl⟩ := hk
    obtain ⟨i, hi, rfl⟩ := List.getElem_of_mem hc
    obtain ⟨j, hj, rfl⟩ := List.getElem_of_mem hd
    have h1 := hel ⟨i, hi⟩ ⟨j, hj⟩
    have h2 := hel₂ ⟨i, hi⟩ ⟨j, hj⟩
    simp only [Fin.getElem_fin] at h1 h2
    rw [h1, h2, eS]
    exact hclose _ _
  · push Not at hk
    rw [hrest key hk, hrest₂ key hk]
    exact hst key

theorem system_nearT (hRel : ControlsT option E Rel) {s s' : CompoundSystem} (hg : ∀ st ∈ s, st.group.Built)
    (harrow : ∀ st ∈ s, ∀ c ∈ st.group.channels, ¬ ContainsArrow c.id) {start m : Str → Option ℂ}
    (h : CompoundSystem.evaluateTMatrix option K lib E s start = .ok (m, s')) {ε : ℝ} (hε : 0 < ε) :
    ∃ δ > 0, ∀ s₁ : CompoundSystem, List.Forall₂ (fun st st₁ => st₁.group.Built ∧
        st₁.group.channels = st.group.channels ∧
        Rel δ st.group.channels st.group.table.resonances st₁.group.table.resonances) s s₁ →
      ∀ start', ∃ m' s₂, CompoundSystem.evaluateTMatrix option K lib E s₁ start' = .ok (m', s₂) ∧
        ((∀ key, Spec.CloseElements ε (start' key) (start key)) → ∀ key, Spec.CloseElements ε (m' key) (m key)) := by
  induction s generalizing start s' with
  | nil =>
    cases h
    refine ⟨1, one_pos, fun s₁ hs₁ start' => ?_⟩
    cases hs₁
    exact ⟨start', [], rfl, fun hst => hst⟩
  | cons st rest ih =>
    obtain ⟨r, cache, rest', h1, h2, rfl⟩ := evaluateTMatrix_cons_ok.mp h
    obtain ⟨δ₁, hδ₁, k1⟩ := group_nearT hRel (hg st List.mem_cons_self) (harrow st List.mem_cons_self) h1 hε
    obtain ⟨δ₂, hδ₂, k2⟩ := ih (fun x hx => hg x (List.mem_cons_of_mem _ hx))
      (fun x hx => harrow x (List.mem_cons_of_mem _ hx)) h2
    refine ⟨min δ₁ δ₂, lt_min hδ₁ hδ₂, fun s₁ hs₁ start' => ?_⟩
    cases hs₁ with
    | cons hst hrest =>
      obtain ⟨b1, b2, b3⟩ := hst
      obtain ⟨m₁, c₁, e1, cl1⟩ := k1 _ b1 b2 (hRel.mono (min_le_left _ _) b3) _ start'
      obtain ⟨m₂, s₂, e2, cl2⟩ := k2 _ (hrest.imp fun _ _ hx =>
        ⟨hx.1, hx.2.1, hRel.mono (min_le_right _ _) hx.2.2⟩) m₁
      exact ⟨m₂, _, evaluateTMatrix_cons_ok.mpr ⟨_, _, _, e1, e2, rfl⟩, fun hst => cl2 (cl1 hst)⟩

theorem close_self {ε : ℝ} (hε : 0 < ε) (start : Str → Option ℂ) (key : Str) :
    Spec.CloseElements ε (start key) (start key) := by
  cases start key <;> simp [Spec.CloseElements, hε]

/-- C80 for the T-matrix of a compound system: if it can be evaluated then, for every tolerance, it can be
evaluated for all sufficiently close resonance parameters, and has the same elements within the tolerance. -/
theorem C80_t_matrix {s s' : CompoundSystem} (hg : ∀ st ∈ s, st.group.Built)
    (harrow : ∀ st ∈ s, ∀ c ∈ st.group.channels, ¬ ContainsArrow c.id) {start m : Str → Option ℂ}
    (h : CompoundSystem.evaluateTMatrix option K lib E s start = .ok (m, s')) {ε : ℝ} (hε : 0 < ε) :
    ∃ δ > 0, ∀ s₁ : CompoundSystem, List.Forall₂ (fun st st₁ => st₁.group.Built ∧
        st₁.group.channels = st.group.channels ∧
        Spec.NearResonances δ st.group.table.resonances st₁.group.table.resonances) s s₁ →
      ∃ m' s₂, CompoundSystem.evaluateTMatrix option K lib E s₁ start = .ok (m', s₂) ∧
        ∀ key, Spec.CloseElements ε (m' key) (m key) := by
  obtain ⟨δ, hδ, hnear⟩ := system_nearT controlsT_near hg harrow h hε
  refine ⟨δ, hδ, fun s₁ hs₁ => ?_⟩
  obtain ⟨m', s₂, e, hcl⟩ := hnear s₁ hs₁ start
  exact ⟨m', s₂, e, hcl (close_self hε start)⟩

/-- C86 for the T-matrix of a compound system: further resonances of small total strength. -/
theorem C86_t_matrix {s s' : CompoundSystem} (hg : ∀ st ∈ s, st.group.Built)
    (harrow : ∀ st ∈ s, ∀ c ∈ st.group.channels, ¬ ContainsArrow c.id) {start m : Str → Option ℂ}
    (h : CompoundSystem.evaluateTMatrix option K lib E s start = .ok (m, s')) {ε : ℝ} (hε : 0 < ε) :
    ∃ δ > 0, ∀ s₁ : CompoundSystem, List.Forall₂ (fun st st₁ => st₁.group.Built ∧
        st₁.group.channels = st.group.channels ∧
        Spec.MoreResonances E δ st.group.channels st.group.table.resonances
          st₁.group.table.resonances) s s₁ →
      ∃ m' s₂, CompoundSystem.evaluateTMatrix option K lib E s₁ start = .ok (m', s₂) ∧
        ∀ key, Spec.CloseElements ε (m' key) (m key) := by
  obtain ⟨δ, hδ, hnear⟩ := system_nearT controlsT_more hg harrow h hε
  refine ⟨δ, hδ, fun s₁ hs₁ => ?_⟩
  obtain ⟨m', s₂, e, hcl⟩ := hnear s₁ hs₁ start
  exact ⟨m', s₂, e, hcl (close_self hε start)⟩

open Example in
/-- The system of the example can be evaluated; its resonances with energies changed by less than some δ give
elements within 1/1000. -/
example (option : BoundaryOption) (lib : CoulombLibrary) (cache : MatrixCache group.channels.length) :
    ∃ m s', CompoundSystem.evaluateTMatrix option constants lib 2 [⟨group, cache⟩] (fun _ => none) = .ok (m, s') ∧
      ∃ δ > 0, ∀ (g' : SpinGroup) (cache' : MatrixCache g'.channels.length), g'.Built →
        g'.channels = group.channels →
        g'.table.resonances = resonances.map (fun r => { r with energy := r.energy + δ / 2 }) →
        ∃ m' s₂, CompoundSystem.evaluateTMatrix option constants lib 2 [⟨g', cache'⟩] (fun _ => none)
          = .ok (m', s₂) ∧ ∀ key, Spec.CloseElements (1 / 1000) (m' key) (m key) := by
  obtain ⟨⟨m, c⟩, hm⟩ := (evaluates option lib cache (fun _ => none) (fun _ => none)).2
  have hs : CompoundSystem.evaluateTMatrix option constants lib 2 [⟨group, cache⟩] (fun _ => none)
      = .ok (m, [⟨group, c⟩]) := evaluateTMatrix_cons_ok.mpr ⟨m, c, [], hm, rfl, rfl⟩
  obtain ⟨δ, hδ, h⟩ := C80_t_matrix (by simpa using group_built) (by simpa using noArrow) hs
    (ε := 1 / 1000) (by norm_num)
  refine ⟨m, _, hs, δ, hδ, fun g' cache' hg' hch hrs => h _ (.cons ⟨hg', hch, ?_⟩ .nil)⟩
  change Spec.NearResonances δ resonances g'.table.resonances
  rw [hrs, Spec.NearResonances, List.forall₂_map_right_iff, List.forall₂_same]
  intro r _
  refine ⟨?_, by simpa using hδ, List.forall₂_same.mpr fun x _ => by simpa using hδ⟩
  rw [add_sub_cancel_left, abs_of_pos (by linarith)]
  linarith

end Verif
