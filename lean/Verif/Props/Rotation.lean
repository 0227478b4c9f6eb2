import Verif.Lemmas.Rotation
import Verif.Lemmas.System
import Verif.Props.SpinGroup
import Verif.Props.SpinGroupSymmetry
import Verif.Props.SpinGroupConstruction

/-!
# Property C97: how the spins are coupled does not matter

Channels that differ in nothing but the channel spin can be replaced by orthogonal combinations of
themselves, and the same holds for several fission channels. All cross sections stay the same.
-/

namespace Verif

open Complex Matrix

variable {option : BoundaryOption} {K : Constants} {lib : CoulombLibrary} {E : ℝ}

/-- The spin group `g` with other resonances. -/
abbrev SpinGroup.withResonances (g : SpinGroup) (rs : List Resonance) : SpinGroup :=
  ⟨g.channels, g.reactions, g.incident, ⟨g.table.channels, rs⟩⟩

theorem C97_aux {g : SpinGroup} (hg : g.Built)
    {Q : Matrix (Fin g.channels.length) (Fin g.channels.length) ℝ} (hQ : Spec.MixesSpins g.channels Q)
    {rs' : List Resonance} (h : Spec.Mixed Q g.table.resonances rs')
    (cache cache' : MatrixCache g.channels.length) (start m : CrossSectionMap)
    (hok : ∃ c, g.evaluate option K lib E cache start = .ok (m, c)) :
    ∃ c, (g.withResonances rs').evaluate option K lib E cache' start = .ok (m, c) := by
  obtain ⟨c, hok⟩ := hok
  obtain ⟨P, S, w, phi, hev, hres⟩ := evaluate_ok hg hok
  have hev' := Rotation.evaluable_mixed hQ h hev
  have hg' : (g.withResonances rs').Built := by
    obtain ⟨ch, re, inc, ids, rs⟩ := g
    exact hg.with_resonances rs'
  obtain ⟨⟨m', c'⟩, hm⟩ := evaluate_ok_of (g := g.withResonances rs') hg' hev' cache' start
  obtain ⟨P', S', w', phi', hev'', hres'⟩ := evaluate_ok hg' hm
  refine ⟨c', ?_⟩
  rw [hm]
  congr 2
  funext id
  rw [hres, hres', ← Evaluable_contribution hev' hev'' id, Rotation.contribution_mixed hQ h hev id]

/-- C97: when the reduced width amplitudes of indistinguishable channels are replaced by orthogonal
combinations, the same for all resonances, the spin group computes the same cross sections, at every
energy, for all reactions and for both boundary options; either both calls succeed or none does. -/
theorem C97_spin_group {g : SpinGroup} (hg : g.Built)
    {Q : Matrix (Fin g.channels.length) (Fin g.channels.length) ℝ} (hQ : Spec.MixesSpins g.channels Q)
    {rs' : List Resonance} (h : Spec.Mixed Q g.table.resonances rs')
    (cache cache' : MatrixCache g.channels.length) (start m : CrossSectionMap) :
    (∃ c, g.evaluate option K lib E cache start = .ok (m, c)) ↔
      ∃ c, (g.withResonances rs').evaluate option K lib E cache' start = .ok (m, c) := by
  refine ⟨C97_aux hg hQ h cache cache' start m, fun hok => ?_⟩
  have hg' : (g.withResonances rs').Built := by
    obtain ⟨ch, re, inc, ids, rs⟩ := g
    exact hg.with_resonances rs'
  exact C97_aux (g := g.withResonances rs') hg' (Rotation.mixesSpins_symm hQ)
    (Rotation.mixed_symm hQ.orthogonal h) cache' cache start m hok

/-- C97 for a compound system: the channels of each spin group may be combined in its own way. -/
theorem C97_system {s s' : CompoundSystem} (hg : ∀ st ∈ s, st.group.Built)
    (h : List.Forall₂ (fun st st' : GroupState =>
      ∃ Q : Matrix (Fin st.group.channels.length) (Fin st.group.channels.length) ℝ,
        Spec.MixesSpins st.group.channels Q ∧
        ∃ rs', Spec.Mixed Q st.group.table.resonances rs' ∧ st'.group = st.group.withResonances rs') s s')
    {start m : CrossSectionMap} {s₂ : CompoundSystem}
    (hok : CompoundSystem.evaluate option K lib E s start = .ok (m, s₂)) :
    ∃ s₂', CompoundSystem.evaluate option K lib E s' start = .ok (m, s₂') := by
  induction h generalizing start s₂ with
  | nil =>
    rw [evaluate_nil] at hok
    cases hok
    exact ⟨[], rfl⟩
  | @cons st st' s s' h1 _ ih =>
    obtain ⟨Q, h1, rs', h2, h3⟩ := h1
    obtain ⟨gr, ca⟩ := st'
    simp only at h3
    subst h3
    obtain ⟨r, c, rest, h4, h5, rfl⟩ := evaluate_cons_ok.mp hok
    obtain ⟨c', h6⟩ := (C97_spin_group (hg st List.mem_cons_self) h1 h2 st.cache ca start r).mp ⟨c, h4⟩
    obtain ⟨s₂', h7⟩ := ih (fun x hx => hg x (List.mem_cons_of_mem _ hx)) h5
    exact ⟨_, evaluate_cons_ok.mpr ⟨_, _, _, h6, h7, rfl⟩⟩

/-- C97 for the elements of the T matrix: they are combined like the channels,
`T'_{cc'} = Σ_{ab} Q_{ca} Q_{c'b} T_{ab}`. -/
theorem C97_tMatrix {g : SpinGroup} (hg : g.Built) (harrow : ∀ c ∈ g.channels, ¬ ContainsArrow c.id)
    {Q : Matrix (Fin g.channels.length) (Fin g.channels.length) ℝ} (hQ : Spec.MixesSpins g.channels Q)
    {rs' : List Resonance} (h : Spec.Mixed Q g.table.resonances rs')
    {cache cache' c₁ c₂ : MatrixCache g.channels.length} {start start' m m' : Str → Option ℂ}
    (hok : g.evaluateTMatrix option K lib E cache start = .ok (m, c₁))
    (hok' : (g.withResonances rs').evaluateTMatrix option K lib E cache' start' = .ok (m', c₂)) :
    ∃ T : Fin g.channels.length → Fin g.channels.length → ℂ,
      (∀ a b : Fin g.channels.length, m (tMatrixKey g.channels[a].id g.channels[b].id) = some (T a b)) ∧
      ∀ c c' : Fin g.channels.length, m' (tMatrixKey g.channels[c].id g.channels[c'].id)
        = some (∑ a, ∑ b, (Q c a : ℂ) * Q c' b * T a b) := by
  have hg' : (g.withResonances rs').Built := by
    obtain ⟨ch, re, inc, ids, rs⟩ := g
    exact hg.with_resonances rs'
  obtain ⟨P, S, hP, hS, -, -, -, hT, -⟩ := evaluateTMatrix_ok hg harrow hok
  obtain ⟨P', S', hP', hS', -, -, -, hT', -⟩ := evaluateTMatrix_ok hg' harrow hok'
  have e1 : P' = P := by
    funext i
    have := (hP' i).symm.trans (hP i)
    simpa using this
  have e2 : Spec.tMatrix option g.channels rs' E P' S' = Spec.tMatrix option g.channels rs' E P S := by
    subst e1
    cases option with
    | shiftFactor => rfl
    | constant =>
      have : S' = S := by
        funext i
        have := (hS' rfl i).symm.trans (hS rfl i)
        simpa using this
      rw [this]
  refine ⟨_, hT, fun c c' => ?_⟩
  refine (hT' c c').trans ?_
  have hPQ : ∀ i j, Q i j ≠ 0 → P i = P j := fun i j hij => by
    have := (hP i).symm.trans ((Rotation.penetrability_eq (hQ.mixes i j hij)).trans (hP j))
    simpa using this
  have e3 := Rotation.tMatrix_mixed (E := E) hQ h (Rotation.logDerivative_mixed hQ hP hS) hPQ
  show some (Spec.tMatrix option g.channels rs' E P' S' c c') = _
  rw [e2, e3, Matrix.mul_apply]
  congr 1
  simp only [Matrix.mul_apply, Finset.sum_mul, Matrix.transpose_apply, Rotation.cplx, Matrix.of_apply]
  rw [Finset.sum_comm]
  exact Finset.sum_congr rfl fun a _ => Finset.sum_congr rfl fun b _ => by ring

/-! ## One resonance: only the sum of the widths of indistinguishable channels matters -/

theorem indistinguishable_refl (c : Channel) : Spec.Indistinguishable c c :=
  ⟨rfl, rfl, rfl, rfl, rfl, rfl, rfl, rfl⟩

theorem indistinguishable_symm {c c' : Channel} (h : Spec.Indistinguishable c c') :
    Spec.Indistinguishable c' c :=
  ⟨h.1.symm, h.2.symm, h.3.symm, h.4.symm, h.5.symm, h.6.symm, h.7.symm, h.8.symm⟩

theorem indistinguishable_trans {a b c : Channel} (h : Spec.Indistinguishable a b)
    (h' : Spec.Indistinguishable b c) : Spec.Indistinguishable a c :=
  ⟨h.1.trans h'.1, h.2.trans h'.2, h.3.trans h'.3, h.4.trans h'.4, h.5.trans h'.5, h.6.trans h'.6,
    h.7.trans h'.7, h.8.trans h'.8⟩

open Classical in
/-- Two vectors of equal length can be turned into each other, within classes of an equivalence. -/
theorem exists_reflection {n : ℕ} (R : Fin n → Fin n → Prop) (hrefl : ∀ i, R i i)
    (hsymm : ∀ i j, R i j → R j i) (htrans : ∀ i j k, R i j → R j k → R i k) (v v' : Fin n → ℝ)
    (h : ∀ i, ∑ j, (if R i j then v j ^ 2 else 0) = ∑ j, if R i j then v' j ^ 2 else 0) :
    ∃ Q : Matrix (Fin n) (Fin n) ℝ, (∀ i j, ∑ c, Q i c * Q j c = if i = j then 1 else 0) ∧
      (∀ i j, Q i j ≠ 0 → R i j) ∧ ∀ i, v' i = ∑ j, Q i j * v j := by
  set u : Fin n → ℝ := fun i => v i - v' i with hu
  set N : Fin n → ℝ := fun i => ∑ j, if R i j then u j ^ 2 else 0 with hN
  set A : Fin n → Fin n → ℝ := fun i j => if R i j then 2 * u i * u j / N i else 0 with hA
  have hNR : ∀ i j, R i j → N i = N j := by
    intro i j hij
    refine Finset.sum_congr rfl fun k _ => ?_
    by_cases hk : R i k
    · rw [if_pos hk, if_pos (htrans _ _ _ (hsymm _ _ hij) hk)]
    · rw [if_neg hk, if_neg fun h' => hk (htrans _ _ _ hij h')]
  have hN0 : ∀ i, N i = 0 → u i = 0 := by
    intro i hi
    have := (Finset.sum_eq_zero_iff_of_nonneg (fun j _ => by split <;> positivity)).mp hi i
      (Finset.mem_univ i)
    rw [if_pos (hrefl i)] at this
    exact pow_eq_zero_iff (two_ne_zero) |>.mp this
  have hsym : ∀ i j, A i j = A j i := by
    intro i j
    simp only [hA]
    by_cases hij : R i j
    · rw [if_pos hij, if_pos (hsymm _ _ hij), hNR i j hij]
      ring
    · rw [if_neg hij, if_neg fun h' => hij (hsymm _ _ h')]
  have hAA : ∀ i j, ∑ c, A i c * A j c = 2 * A i j := by
    intro i j
    have e : ∀ c, A i c * A j c = (if R i j then 4 * u i * u j / (N i * N i) else 0)
        * (if R i c then u c ^ 2 else 0) := by
      intro c
      simp only [hA]
      by_cases h1 : R i c
      · by_cases h2 : R j c
        · have h3 := htrans _ _ _ h1 (hsymm _ _ h2)
          rw [if_pos h1, if_pos h2, if_pos h3, if_pos h1, hNR j i (hsymm _ _ h3)]
          ring
        · rw [if_neg h2, if_neg fun h' => h2 (htrans _ _ _ (hsymm _ _ h') h1)]
          ring
      · rw [if_neg h1, if_neg h1]
        ring
    simp only [e]
    rw [← Finset.mul_sum]
    change _ * N i = _
    simp only [hA]
    by_cases hij : R i j
    · rw [if_pos hij, if_pos hij]
      by_cases h0 : N i = 0
      · rw [hN0 i h0]
        ring
      · field_simp
        ring
    · rw [if_neg hij, if_neg hij]
      ring
  refine ⟨Matrix.of fun i j => (if i = j then 1 else 0) - A i j, fun i j => ?_, fun i j hij => ?_,
    fun i => ?_⟩
  · simp only [Matrix.of_apply]
    have : ∀ c, ((if i = c then (1 : ℝ) else 0) - A i c) * ((if j = c then 1 else 0) - A j c)
        = (if i = c then (if j = c then 1 else 0) else 0) - (if i = c then A j c else 0)
          - (if j = c then A i c else 0) + A i c * A j c := by
      intro c
      split <;> split <;> ring
    simp only [this, Finset.sum_add_distrib, Finset.sum_sub_distrib, hAA]
    simp only [Finset.sum_ite_eq, Finset.mem_univ, if_true]
    rw [hsym j i]
    by_cases hij : i = j
    · simp only [hij, if_true]
      ring
    · rw [if_neg hij, if_neg fun h' => hij h'.symm]
      ring
  · by_contra hR
    apply hij
    have hne : i ≠ j := fun h' => hR (h' ▸ hrefl i)
    simp only [Matrix.of_apply, hA]
    rw [if_neg hne, if_neg hR, sub_zero]
  · simp only [Matrix.of_apply, sub_mul, Finset.sum_sub_distrib, ite_mul, one_mul, zero_mul,
      Finset.sum_ite_eq, Finset.mem_univ, if_true]
    have e : ∑ j, A i j * v j = 2 * u i / N i * ∑ j, if R i j then u j * v j else 0 := by
      rw [Finset.mul_sum]
      refine Finset.sum_congr rfl fun j _ => ?_
      simp only [hA]
      split <;> ring
    have e2 : N i = 2 * ∑ j, if R i j then u j * v j else 0 := by
      have h1 := h i
      have : ∀ j, (if R i j then u j ^ 2 else 0) = 2 * (if R i j then u j * v j else 0)
          - (if R i j then v j ^ 2 else 0) + (if R i j then v' j ^ 2 else 0) := by
        intro j
        split
        · simp only [hu]
          ring
        · ring
      simp only [hN, this, Finset.sum_add_distrib, Finset.sum_sub_distrib, ← Finset.mul_sum]
      linarith
    rw [e]
    by_cases h0 : N i = 0
    · have := hN0 i h0
      rw [this, mul_zero, zero_div, zero_mul]
      simp only [hu] at this
      linarith
    · have e3 : 2 * u i / N i * (∑ j, if R i j then u j * v j else 0) = u i := by
        field_simp
        rw [e2]
        ring
      rw [e3]
      simp only [hu]
      ring

open Classical in
/-- C97 for a spin group with one resonance: only the sum of the squares of the amplitudes of all
indistinguishable channels matters, that is, the partial widths summed over the channel spins. -/
theorem C97_one_resonance {g : SpinGroup} (hg : g.Built) {r r' : Resonance}
    (hr : g.table.resonances = [r]) (he : r'.energy = r.energy) (hel : r'.eliminated = r.eliminated)
    (hlen : r'.widths.length = r.widths.length)
    (hsum : ∀ i : Fin g.channels.length,
      ∑ j : Fin g.channels.length,
        (if Spec.Indistinguishable g.channels[i] g.channels[j] then r'.width j ^ 2 else 0)
        = ∑ j : Fin g.channels.length,
          if Spec.Indistinguishable g.channels[i] g.channels[j] then r.width j ^ 2 else 0)
    (cache cache' : MatrixCache g.channels.length) (start m : CrossSectionMap) :
    (∃ c, g.evaluate option K lib E cache start = .ok (m, c)) ↔
      ∃ c, (g.withResonances [r']).evaluate option K lib E cache' start = .ok (m, c) := by
  obtain ⟨Q, h1, h2, h3⟩ := exists_reflection
    (fun i j : Fin g.channels.length => Spec.Indistinguishable g.channels[i] g.channels[j])
    (fun _ => indistinguishable_refl _) (fun _ _ h => indistinguishable_symm h)
    (fun _ _ _ h h' => indistinguishable_trans h h') (fun i => r.width i) (fun i => r'.width i)
    (fun i => (hsum i).symm)
  refine C97_spin_group hg ⟨h1, h2⟩ ?_ cache cache' start m
  rw [hr]
  exact .cons ⟨he, hel, hlen, h3⟩ .nil

/-! ## An example: two channel spins -/

namespace Rotation.Example

open Verif.Example

noncomputable def singlet : Channel :=
  makeChannel .neutron pair pair pair.id 0 ⟨1, 0, 1, -1⟩ radii 0
noncomputable def triplet : Channel :=
  makeChannel .neutron pair pair pair.id 0 ⟨1, 1, 1, -1⟩ radii 0
noncomputable def channels : List Channel := [singlet, triplet]
noncomputable def resonances : List Resonance := [⟨1, [5, 0], 1 / 10⟩, ⟨5, [0, 10], 0⟩]
noncomputable def table : ResonanceTable := ⟨channels.map Channel.id, resonances⟩

theorem consistent : Spec.ConsistentGroup channels table := by
  refine ⟨by simp [channels], ?_, ?_, ?_, ?_, rfl⟩
  · intro c hc d hd
    simp only [channels, List.mem_cons, List.not_mem_nil, or_false] at hc hd
    rcases hc with rfl | rfl <;> rcases hd with rfl | rfl <;> rfl
  · have p1 : Physical ⟨1, 0, 1, -1⟩ := ⟨⟨0, by norm_num⟩, ⟨2, by norm_num⟩⟩
    have p2 : Physical ⟨1, 1, 1, -1⟩ := ⟨⟨2, by norm_num⟩, ⟨2, by norm_num⟩⟩
    have n1 : singlet.id ≠ triplet.id := fun h =>
      absurd ((C07_channelID_injective _ _ _ _ p1 p2).mp h).2.2.1 (by norm_num)
    simp [channels, n1]
  · intro c hc d hd
    simp only [channels, List.mem_cons, List.not_mem_nil, or_false] at hc hd
    rcases hc with rfl | rfl <;> rcases hd with rfl | rfl <;> exact ⟨rfl, rfl⟩
  · exact ⟨singlet, by simp [channels], rfl⟩

/-- The channels can be turned by the angle whose cosine is 3/5. -/
noncomputable def turn : Matrix (Fin channels.length) (Fin channels.length) ℝ :=
  !![3 / 5, 4 / 5; -4 / 5, 3 / 5]

theorem alike : ∀ i j : Fin channels.length, Spec.Indistinguishable channels[i] channels[j] := by
  intro i j
  have h : ∀ c ∈ channels, c = singlet ∨ c = triplet := by
    intro c hc
    simpa [channels] using hc
  rcases h _ (List.getElem_mem i.2) with e | e <;> rcases h _ (List.getElem_mem j.2) with e' | e' <;>
    simp only [Fin.getElem_fin, e, e'] <;> exact ⟨rfl, rfl, rfl, rfl, rfl, rfl, rfl, rfl⟩

theorem mixesSpins : Spec.MixesSpins channels turn := by
  have h : ∀ i j : Fin 2, ∑ c : Fin 2, (!![3 / 5, 4 / 5; -4 / 5, 3 / 5] : Matrix (Fin 2) (Fin 2) ℝ) i c
      * (!![3 / 5, 4 / 5; -4 / 5, 3 / 5] : Matrix (Fin 2) (Fin 2) ℝ) j c = if i = j then 1 else 0 := by
    intro i j
    fin_cases i <;> fin_cases j <;> norm_num [Fin.sum_univ_two]
  exact ⟨h, fun i j _ => alike i j⟩

/-- Resonances that decay to one channel spin each become resonances that decay to both. -/
theorem mixed : Spec.Mixed turn resonances [⟨1, [3, -4], 1 / 10⟩, ⟨5, [8, 6], 0⟩] := by
  refine .cons ⟨rfl, rfl, rfl, fun c => ?_⟩ (.cons ⟨rfl, rfl, rfl, fun c => ?_⟩ .nil)
  · change Fin 2 at c
    change _ = ∑ c' : Fin 2, (!![3 / 5, 4 / 5; -4 / 5, 3 / 5] : Matrix (Fin 2) (Fin 2) ℝ) c c' * _
    fin_cases c <;> norm_num [Fin.sum_univ_two, Resonance.width]
  · change Fin 2 at c
    change _ = ∑ c' : Fin 2, (!![3 / 5, 4 / 5; -4 / 5, 3 / 5] : Matrix (Fin 2) (Fin 2) ℝ) c c' * _
    fin_cases c <;> norm_num [Fin.sum_univ_two, Resonance.width]

theorem neutralAt : ∀ c ∈ channels, NeutralAt 2 c := by
  intro c hc
  simp only [channels, List.mem_cons, List.not_mem_nil, or_false] at hc
  rcases hc with rfl | rfl
  · exact ⟨by decide, fun _ => by decide, fun _ => by norm_num [singlet, makeChannel, pair],
      by norm_num [singlet, makeChannel, pair], ⟨1, one_pos, rfl⟩, ⟨1, rfl⟩, ⟨1, rfl⟩⟩
  · exact ⟨by decide, fun _ => by decide, fun _ => by norm_num [triplet, makeChannel, pair],
      by norm_num [triplet, makeChannel, pair], ⟨1, one_pos, rfl⟩, ⟨1, rfl⟩, ⟨1, rfl⟩⟩

/-- The group is accepted, gives cross sections at energy 2, and gives the same ones after turning the
channels. -/
example (option : BoundaryOption) (lib : CoulombLibrary) (start : CrossSectionMap) :
    ∃ g, makeSpinGroup channels table = .ok g ∧ ∀ cache cache', ∃ m,
      (∃ c, g.evaluate option constants lib 2 cache start = .ok (m, c)) ∧
      ∃ c, (g.withResonances [⟨1, [3, -4], 1 / 10⟩, ⟨5, [8, 6], 0⟩]).evaluate option constants lib 2 cache'
        start = .ok (m, c) := by
  obtain ⟨g, hg⟩ := (C24_accepted _ _).mpr consistent
  obtain ⟨h1, h2, -⟩ := C24_contents hg
  obtain ⟨hb, -⟩ := SpinGroup.Built.of_make hg
  refine ⟨g, hg, ?_⟩
  obtain ⟨ch, re, inc, ta⟩ := g
  simp only at h1 h2
  subst h1 h2
  intro cache cache'
  obtain ⟨⟨⟨m, c⟩, hm⟩, -⟩ := C19_neutral_channels (option := option) (K := constants) (lib := lib) hb
    neutralAt
    (fun r hr => by
      simp only [table, resonances, List.mem_cons, List.not_mem_nil, or_false] at hr
      rcases hr with rfl | rfl <;> rfl)
    (fun r hr => by
      simp only [table, resonances, List.mem_cons, List.not_mem_nil, or_false] at hr
      rcases hr with rfl | rfl <;> norm_num)
    cache start (fun _ => none)
  exact ⟨m, ⟨c, hm⟩, (C97_spin_group hb mixesSpins mixed cache cache' start m).mp ⟨c, hm⟩⟩

open Classical in
/-- With one resonance, amplitudes 5 and 0 are as good as 3 and 4. -/
example : ∀ i : Fin channels.length, ∑ j : Fin channels.length,
    (if Spec.Indistinguishable channels[i] channels[j] then (⟨1, [3, 4], 1 / 10⟩ : Resonance).width j ^ 2 else 0)
      = ∑ j : Fin channels.length,
        if Spec.Indistinguishable channels[i] channels[j] then (⟨1, [5, 0], 1 / 10⟩ : Resonance).width j ^ 2
          else 0 := by
  intro i
  simp only [alike, if_true]
  change ∑ j : Fin 2, _ = ∑ j : Fin 2, _
  norm_num [Fin.sum_univ_two, Resonance.width]

end Rotation.Example

end Verif
