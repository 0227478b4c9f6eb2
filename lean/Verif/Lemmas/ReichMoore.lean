import Verif.Lemmas.Endf
import Verif.Spec.Endf
import Verif.Props.HardSphere
import Verif.Props.ChannelID

/-!
# Lemmas on the acceptance of Reich-Moore evaluations
-/

namespace Verif

/-- A sequence of lookups succeeds exactly if nothing is asked for more often than it is available. -/
theorem retrieveAll_exists (requests : List (ℕ × ℚ)) (available : List QuantumNumbers) :
    (∃ r, retrieveAll requests available = .ok r) ↔
      ∀ l j, requests.countP (fun r => r.1 = l ∧ |r.2| = j)
        ≤ available.countP (fun q => q.l = l ∧ q.J = j) := by
  induction requests generalizing available with
  | nil => exact ⟨fun _ l j => Nat.zero_le _, fun _ => ⟨_, rfl⟩⟩
  | cons a requests ih =>
    obtain ⟨l, j⟩ := a
    cases h : retrieveQuantumNumber l j available with
    | error e =>
      constructor
      · rintro ⟨r, hr⟩
        rw [retrieveAll] at hr
        simp only [h] at hr
        cases hr
      · intro hc
        have h1 := hc l |j|
        rw [List.countP_cons_of_pos (by simp)] at h1
        have h2 : available.countP (fun q => decide (q.l = l ∧ q.J = |j|)) = 0 := by
          rw [List.countP_eq_zero]
          intro q hq
          have := ((C06_fails_iff _ _ _ _).mp h).2 q hq
          simpa using this
        omega
    | ok r =>
      obtain ⟨q, rest⟩ := r
      obtain ⟨h1, h2, hp⟩ := C06_success _ _ _ _ _ h
      have hex : (∃ r, retrieveAll ((l, j) :: requests) available = .ok r) ↔
          ∃ r, retrieveAll requests rest = .ok r := by
        rw [retrieveAll]
        simp only [h]
        constructor
        · rintro ⟨r, hr⟩
          cases h' : retrieveAll requests rest with
          | error e => simp [h'] at hr
          | ok r => exact ⟨r, rfl⟩
        · rintro ⟨⟨a, b⟩, hr⟩
          exact ⟨_, by rw [hr]⟩
      rw [hex, ih]
      refine forall_congr' fun l' => forall_congr' fun j' => ?_
      rw [← hp.countP_eq, List.countP_cons, List.countP_cons]
      by_cases hk : l = l' ∧ |j| = j'
      · rw [if_pos (by simpa using hk), if_pos (by simp [h1, h2, hk])]
        omega
      · rw [if_neg (by simpa using hk), if_neg (by simpa [h1, h2] using hk)]
        simp

theorem retrieveAll_append {a b : List (ℕ × ℚ)} {available : List QuantumNumbers}
    {got rest : List QuantumNumbers} :
    retrieveAll (a ++ b) available = .ok (got, rest) ↔
      ∃ g mid g', retrieveAll a available = .ok (g, mid) ∧ retrieveAll b mid = .ok (g', rest) ∧
        got = g ++ g' := by
  induction a generalizing available got with
  | nil =>
    simp only [List.nil_append, retrieveAll, Except.ok.injEq, Prod.mk.injEq]
    constructor
    · intro h
      exact ⟨[], available, got, ⟨rfl, rfl⟩, h, rfl⟩
    · rintro ⟨g, mid, g', ⟨rfl, rfl⟩, h, rfl⟩
      exact h
  | cons x a ih =>
    obtain ⟨l, j⟩ := x
    simp only [List.cons_append, retrieveAll]
    cases h : retrieveQuantumNumber l j available with
    | error e => simp
    | ok r =>
      obtain ⟨q, mid⟩ := r
      simp only
      cases h1 : retrieveAll (a ++ b) mid with
      | error e =>
        simp only [reduceCtorEq, false_iff, not_exists, not_and]
        intro g m g' hg hg'
        cases h2 : retrieveAll a mid with
        | error e => simp [h2] at hg
        | ok r =>
          obtain ⟨g2, m2⟩ := r
          simp only [h2, Except.ok.injEq, Prod.mk.injEq] at hg
          obtain ⟨rfl, rfl⟩ := hg
          have := ih.mpr ⟨g2, m2, g', h2, hg', rfl⟩
          rw [h1] at this
          cases this
      | ok r =>
        obtain ⟨g1, r1⟩ := r
        simp only [Except.ok.injEq, Prod.mk.injEq]
        constructor
        · rintro ⟨rfl, rfl⟩
          obtain ⟨g, m, g', h2, h3, rfl⟩ := ih.mp h1
          exact ⟨q :: g, m, g', by rw [h2], h3, rfl⟩
        · rintro ⟨g, m, g', h2, h3, rfl⟩
          cases h4 : retrieveAll a mid with
          | error e => simp [h4] at h2
          | ok r =>
            obtain ⟨g2, m2⟩ := r
            simp only [h4, Except.ok.injEq, Prod.mk.injEq] at h2
            obtain ⟨rfl, rfl⟩ := h2
            have := ih.mpr ⟨g2, m2, g', h4, h3, rfl⟩
            rw [h1] at this
            cases this
            exact ⟨rfl, rfl⟩

theorem retrieveAll_cons {l : ℕ} {j : ℚ} {b : List (ℕ × ℚ)} {available : List QuantumNumbers}
    {got rest : List QuantumNumbers} :
    retrieveAll ((l, j) :: b) available = .ok (got, rest) ↔
      ∃ q mid g, retrieveQuantumNumber l j available = .ok (q, mid) ∧
        retrieveAll b mid = .ok (g, rest) ∧ got = q :: g := by
  rw [retrieveAll]
  cases h : retrieveQuantumNumber l j available with
  | error e => simp
  | ok r =>
    obtain ⟨q, mid⟩ := r
    simp only
    cases h1 : retrieveAll b mid with
    | error e => simp [h1]
    | ok r =>
      obtain ⟨g, m⟩ := r
      simp only [Except.ok.injEq, Prod.mk.injEq]
      constructor
      · rintro ⟨rfl, rfl⟩
        exact ⟨q, mid, g, ⟨rfl, rfl⟩, h1, rfl⟩
      · rintro ⟨q', mid', g', ⟨rfl, rfl⟩, h2, rfl⟩
        rw [h1] at h2
        cases h2
        exact ⟨rfl, rfl⟩

/-- A relation between the elements of a list that can only fail for equal keys. -/
theorem pairwise_of_filter {α β : Type*} [DecidableEq β] {key : α → β} {R : α → α → Prop} {l : List α}
    (h : ∀ a ∈ l, (l.filter fun b => decide (key b = key a)).Pairwise R)
    (hk : ∀ a ∈ l, ∀ b ∈ l, ¬ R a b → key a = key b) : l.Pairwise R := by
  induction l with
  | nil => exact .nil
  | cons a l ih =>
    rw [List.pairwise_cons]
    constructor
    · intro b hb
      by_contra hR
      have hkey := hk a List.mem_cons_self b (List.mem_cons_of_mem _ hb) hR
      have h1 := h a List.mem_cons_self
      rw [List.filter_cons_of_pos (by simp), List.pairwise_cons] at h1
      exact hR (h1.1 b (List.mem_filter.mpr ⟨hb, by simp [hkey]⟩))
    · refine ih (fun b hb => ?_) fun b hb c hc =>
        hk b (List.mem_cons_of_mem _ hb) c (List.mem_cons_of_mem _ hc)
      have h1 := h b (List.mem_cons_of_mem _ hb)
      rw [List.filter_cons] at h1
      split at h1
      · exact (List.pairwise_cons.mp h1).2
      · exact h1

namespace Endf

open Spec

variable {K : Constants} {lib : CoulombLibrary}

/-- The lookups made for an evaluation, with the l value each belongs to. -/
def groupsOf (lvalues : List ReichMooreLValue) : List (ReichMooreLValue × ℚ) :=
  lvalues.flatMap fun lv => (sortUnique (lv.resonances.map ReichMooreResonance.spin)).map fun J => (lv, J)

/-- What the data of one (l, J) look like. -/
structure Block where
  lvalue : ReichMooreLValue
  J : ℚ
  numbers : QuantumNumbers
  pair : ParticlePair
  fission : ParticlePair
  capture : ParticlePair
  radii : ChannelRadii
  data : List ChannelData

/-- The block has been made from the evaluation. -/
structure Block.Valid (K : Constants) (lib : CoulombLibrary) (neutronMass : ℝ) (incident target : Str)
    (spin : ℚ) (ap : ℝ) (nro : Option (ℝ → Outcome ℝ)) (naps : ℤ) (b : Block) : Prop where
  pair : incidentPair neutronMass incident target b.lvalue.awri spin = .ok b.pair
  fission : b.fission.id = "fission".toList
  capture : b.capture.id = "capture".toList
  radii : makeChannelRadii (if b.lvalue.apl ≠ 0 then b.lvalue.apl else ap) nro naps b.lvalue.awri neutronMass
    = .ok b.radii
  data : reichMooreData K lib b.pair b.fission b.capture b.radii b.lvalue.l b.J
    (b.lvalue.resonances.filter fun r => r.spin == b.J) b.numbers = .ok b.data

theorem loop_blocks {neutronMass : ℝ} {incident target : Str} {spin : ℚ} {ap : ℝ}
    {nro : Option (ℝ → Outcome ℝ)} {naps : ℤ} {lvalue : ReichMooreLValue}
    {pair fission capture : ParticlePair} {radii : ChannelRadii}
    (hp : incidentPair neutronMass incident target lvalue.awri spin = .ok pair)
    (hf : fission.id = "fission".toList) (hc : capture.id = "capture".toList)
    (hr : makeChannelRadii (if lvalue.apl ≠ 0 then lvalue.apl else ap) nro naps lvalue.awri neutronMass
      = .ok radii) {Js : List ℚ}
    {available rest : List QuantumNumbers} {data : List ChannelData}
    (h : reichMooreLoop K lib pair fission capture radii lvalue Js available = .ok (data, rest)) :
    ∃ blocks : List Block, (∀ b ∈ blocks, b.Valid K lib neutronMass incident target spin ap nro naps) ∧
      blocks.map (fun b => (b.lvalue, b.J)) = Js.map (fun J => (lvalue, J)) ∧
      retrieveAll (Js.map fun J => (lvalue.l, J)) available = .ok (blocks.map Block.numbers, rest) ∧
      data = blocks.flatMap Block.data := by
  induction Js generalizing available rest data with
  | nil =>
    cases h
    exact ⟨[], by simp, rfl, rfl, rfl⟩
  | cons J Js ih =>
    rw [reichMooreLoop, bind_ok] at h
    obtain ⟨⟨n, av⟩, h1, h⟩ := h
    rw [bind_ok] at h
    obtain ⟨block, h2, h⟩ := h
    rw [bind_ok] at h
    obtain ⟨⟨more, rest'⟩, h3, h⟩ := h
    cases h
    obtain ⟨blocks, hv, hm, hr', rfl⟩ := ih h3
    refine ⟨⟨lvalue, J, n, pair, fission, capture, radii, block⟩ :: blocks, ?_, ?_, ?_, ?_⟩
    · intro b hb
      rcases List.mem_cons.mp hb with rfl | hb
      · exact ⟨hp, hf, hc, hr, h2⟩
      · exact hv b hb
    · simp [hm]
    · exact retrieveAll_cons.mpr ⟨n, av, _, h1, hr', rfl⟩
    · rfl

theorem overLValues_blocks {neutronMass : ℝ} {incident target : Str} {spin : ℚ} {ap : ℝ}
    {nro : Option (ℝ → Outcome ℝ)} {naps : ℤ} {lvalues : List ReichMooreLValue}
    {available rest : List QuantumNumbers} {data : List ChannelData}
    (h : overLValues (makeReichMooreChannelData K lib neutronMass incident target spin ap nro naps)
      lvalues available = .ok (data, rest)) :
    ∃ blocks : List Block, (∀ b ∈ blocks, b.Valid K lib neutronMass incident target spin ap nro naps) ∧
      blocks.map (fun b => (b.lvalue, b.J)) = groupsOf lvalues ∧
      retrieveAll ((groupsOf lvalues).map fun x => (x.1.l, x.2)) available
        = .ok (blocks.map Block.numbers, rest) ∧
      data = blocks.flatMap Block.data := by
  induction lvalues generalizing available rest data with
  | nil =>
    cases h
    exact ⟨[], by simp, rfl, rfl, rfl⟩
  | cons lvalue lvalues ih =>
    rw [overLValues] at h
    obtain ⟨⟨groups, av⟩, h1, h⟩ := bind_ok.mp h
    obtain ⟨⟨more, rest'⟩, h2, h⟩ := bind_ok.mp h
    cases h
    obtain ⟨blocks, hv, hm, hr, rfl⟩ := ih h2
    unfold makeReichMooreChannelData at h1
    obtain ⟨pair, k1, h1⟩ := bind_ok.mp h1
    obtain ⟨fission, k2, h1⟩ := bind_ok.mp h1
    obtain ⟨capture, k3, h1⟩ := bind_ok.mp h1
    obtain ⟨radii, k4, h1⟩ := bind_ok.mp h1
    obtain ⟨blocks', hv', hm', hr', rfl⟩ := loop_blocks (ap := ap) (nro := nro) (naps := naps) k1
      (makeParticlePair_id k2) (makeParticlePair_id k3) k4 h1
    refine ⟨blocks' ++ blocks, ?_, ?_, ?_, ?_⟩
    · intro b hb
      rcases List.mem_append.mp hb with hb | hb
      · exact hv' b hb
      · exact hv b hb
    · rw [List.map_append, hm', hm, groupsOf, groupsOf, List.flatMap_cons]
    · rw [groupsOf, List.flatMap_cons, List.map_append]
      refine retrieveAll_append.mpr ⟨blocks'.map Block.numbers, av, blocks.map Block.numbers, ?_, hr, ?_⟩
      · rw [List.map_map]
        exact hr'
      · rw [List.map_append]
    · rw [List.flatMap_append]

theorem elastic_penetrability {neutronMass : ℝ} {incident target : Str} {spin : ℚ} {awri : ℝ}
    {pair : ParticlePair} {radii : ChannelRadii} {n : QuantumNumbers} {E a : ℝ}
    (hm : 0 < neutronMass) (ha : 0 < awri)
    (hp : incidentPair neutronMass incident target awri spin = .ok pair) (hl : n.l ≤ 4) (hE : E ≠ 0)
    (ha0 : 0 < a) (hr : radii.penetrability E = .ok a) :
    ∃ P, 0 < P ∧ (elasticChannel pair radii n).penetrability K lib E = .ok P := by
  obtain ⟨-, -, -, rfl⟩ := incidentPair_ok hp
  have hk : 0 < (elasticChannel (⟨⟨incident, neutronMass, 0, 1 / 2, 1⟩,
      ⟨target, awri * neutronMass, 0, spin, 1⟩, pairID incident target,
      neutronMass * (awri * neutronMass) / (neutronMass + awri * neutronMass),
      awri * neutronMass / (neutronMass + awri * neutronMass)⟩ : ParticlePair) radii n).waveNumber K E := by
    unfold Channel.waveNumber elasticChannel plainChannel makeChannel
    have h1 : 0 < |E| := abs_pos.mpr hE
    have h2 : 0 < |E * (awri * neutronMass / (neutronMass + awri * neutronMass)) + 0| := by
      rw [add_zero, abs_pos]
      exact mul_ne_zero hE (by positivity)
    have h3 := K.hbar_pos
    simp only
    positivity
  have h1 : (elasticChannel (⟨⟨incident, neutronMass, 0, 1 / 2, 1⟩,
      ⟨target, awri * neutronMass, 0, spin, 1⟩, pairID incident target,
      neutronMass * (awri * neutronMass) / (neutronMass + awri * neutronMass),
      awri * neutronMass / (neutronMass + awri * neutronMass)⟩ : ParticlePair) radii n).penetrability K lib E
      = calculatePenetrability lib .neutron n.l ((elasticChannel (⟨⟨incident, neutronMass, 0, 1 / 2, 1⟩,
      ⟨target, awri * neutronMass, 0, spin, 1⟩, pairID incident target,
      neutronMass * (awri * neutronMass) / (neutronMass + awri * neutronMass),
      awri * neutronMass / (neutronMass + awri * neutronMass)⟩ : ParticlePair) radii n).waveNumber K E * a) 0 := by
    have e1 : ∀ p : ParticlePair, (elasticChannel p radii n).eta K E = .ok 0 := fun p => rfl
    have e2 : ∀ p : ParticlePair, (elasticChannel p radii n).radii.penetrability E = .ok a := fun p => hr
    unfold Channel.penetrability
    rw [e1, e2]
    rfl
  rw [h1]
  refine ⟨_, ?_, (C09_recursion lib n.l hl _ 0).1⟩
  exact (C09_bounds lib n.l hl _ 0 _ _ (mul_pos hk ha0) (C09_recursion lib n.l hl _ 0).1
    (C09_recursion lib n.l hl _ 0).2).1

theorem toElasticWidth_exists {value P : ℝ} (hP : 0 < P) : ∃ w, toElasticWidth value P = .ok w := by
  unfold toElasticWidth
  simp only
  rw [if_neg]
  · exact ⟨_, rfl⟩
  · rintro (h | h)
    · exact hP.ne' h
    · have : 0 ≤ |value| / 2 / P := by positivity
      linarith

theorem loop_exists {neutronMass : ℝ} {incident target : Str} {spin : ℚ} {ap : ℝ}
    {nro : Option (ℝ → Outcome ℝ)} {naps : ℤ} {lvalue : ReichMooreLValue}
    {pair fission capture : ParticlePair} {radii : ChannelRadii} (hm : 0 < neutronMass)
    (hu : Usable neutronMass ap nro naps lvalue)
    (hp : incidentPair neutronMass incident target lvalue.awri spin = .ok pair)
    (hr : makeChannelRadii (if lvalue.apl ≠ 0 then lvalue.apl else ap) nro naps lvalue.awri
      neutronMass = .ok radii) {Js : List ℚ} {available rest got : List QuantumNumbers}
    (h : retrieveAll (Js.map fun J => (lvalue.l, J)) available = .ok (got, rest)) :
    ∃ data, reichMooreLoop K lib pair fission capture radii lvalue Js available = .ok (data, rest) := by
  induction Js generalizing available got with
  | nil =>
    cases h
    exact ⟨_, rfl⟩
  | cons J Js ih =>
    rw [List.map_cons, retrieveAll_cons] at h
    obtain ⟨n, mid, g, h1, h2, rfl⟩ := h
    obtain ⟨more, h3⟩ := ih h2
    have hnl := (C06_success _ _ _ _ _ h1).1
    obtain ⟨rw, hrw⟩ : ∃ rw, (lvalue.resonances.filter fun r => r.spin == J).mapM (fun r =>
        (elasticChannel pair radii n).penetrability K lib r.energy >>= toElasticWidth r.neutronWidth)
        = .ok rw := by
      refine mapM_exists.mpr fun r hr' => ?_
      have hmem := (List.mem_filter.mp hr').1
      obtain ⟨radii', k1, k2⟩ := hu.radii
      rw [hr] at k1
      obtain rfl := Except.ok.inj k1
      obtain ⟨a, ha, hra⟩ := k2 r hmem
      obtain ⟨P, hP, hP'⟩ := elastic_penetrability (K := K) (lib := lib) (n := n) hm hu.awri hp
        (hnl ▸ hu.l) (hu.energies r hmem) ha hra
      obtain ⟨w, hw⟩ := toElasticWidth_exists (value := r.neutronWidth) hP
      exact ⟨w, bind_ok.mpr ⟨P, hP', hw⟩⟩
    obtain ⟨block, hb⟩ : ∃ block, reichMooreData K lib pair fission capture radii lvalue.l J
        (lvalue.resonances.filter fun r => r.spin == J) n = .ok block :=
      ⟨_, reichMooreData_ok.mpr ⟨rw, hrw, rfl⟩⟩
    refine ⟨block ++ more, ?_⟩
    rw [reichMooreLoop]
    exact bind_ok.mpr ⟨⟨n, mid⟩, h1, bind_ok.mpr ⟨block, hb, bind_ok.mpr ⟨⟨more, rest⟩, h3, rfl⟩⟩⟩

theorem makeParticlePair_exists {a b : Particle} (id : PairID) (h : a.mass + b.mass ≠ 0) :
    ∃ pair, makeParticlePair a b id = .ok pair := by
  unfold makeParticlePair
  simp only
  rw [if_neg h]
  exact ⟨_, rfl⟩

theorem overLValues_exists {neutronMass : ℝ} (incident target : Str) (spin : ℚ) {ap : ℝ}
    {nro : Option (ℝ → Outcome ℝ)} {naps : ℤ} {lvalues : List ReichMooreLValue}
    (hm : 0 < neutronMass) (hu : ∀ lv ∈ lvalues, Usable neutronMass ap nro naps lv)
    {available got rest : List QuantumNumbers}
    (h : retrieveAll ((groupsOf lvalues).map fun x => (x.1.l, x.2)) available = .ok (got, rest)) :
    ∃ data, overLValues (makeReichMooreChannelData K lib neutronMass incident target spin ap nro naps)
      lvalues available = .ok (data, rest) := by
  induction lvalues generalizing available got with
  | nil =>
    cases h
    exact ⟨_, rfl⟩
  | cons lvalue lvalues ih =>
    rw [groupsOf, List.flatMap_cons, List.map_append, retrieveAll_append] at h
    obtain ⟨g, mid, g', h1, h2, rfl⟩ := h
    obtain ⟨more, h3⟩ := ih (fun lv hlv => hu lv (List.mem_cons_of_mem _ hlv)) h2
    have hu' := hu lvalue List.mem_cons_self
    have hp := incidentPair_eq incident target spin hm hu'.awri.le
    have hne := (incidentPair_ok hp).2.2.1
    obtain ⟨radii, k1, -⟩ := hu'.radii
    obtain ⟨fission, k2⟩ := makeParticlePair_exists (a := ⟨incident, neutronMass, 0, 1 / 2, 1⟩)
      (b := ⟨target, lvalue.awri * neutronMass, 0, spin, 1⟩) "fission".toList hne
    obtain ⟨capture, k3⟩ := makeParticlePair_exists (a := ⟨incident, neutronMass, 0, 1 / 2, 1⟩)
      (b := ⟨target, lvalue.awri * neutronMass, 0, spin, 1⟩) "capture".toList hne
    rw [List.map_map] at h1
    obtain ⟨data, k4⟩ := loop_exists (K := K) (lib := lib) (fission := fission) (capture := capture)
      hm hu' hp k1 h1
    refine ⟨data ++ more, ?_⟩
    rw [overLValues]
    refine bind_ok.mpr ⟨⟨data, mid⟩, ?_, bind_ok.mpr ⟨⟨more, rest⟩, h3, rfl⟩⟩
    unfold makeReichMooreChannelData
    exact bind_ok.mpr ⟨_, hp, bind_ok.mpr ⟨fission, k2, bind_ok.mpr ⟨capture, k3,
      bind_ok.mpr ⟨radii, k1, k4⟩⟩⟩⟩

end Endf

end Verif
