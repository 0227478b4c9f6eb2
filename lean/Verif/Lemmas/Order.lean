import Verif.Spec.Order
import Verif.Lemmas.LowEnergyRange
import Verif.Props.ReichMooreRange
import Verif.Props.UnresolvedRange

/-!
# Lemmas on evaluations in another order
-/

namespace Verif.Endf

open Spec

section

variable {α β γ : Type}

/-- A list can be reordered together with a list that belongs to it. -/
theorem perm_along {P : α → γ → Prop} {xs ys : List α} {ws : List γ} (hp : xs.Perm ys)
    (h : List.Forall₂ P xs ws) : ∃ ws', List.Forall₂ P ys ws' ∧ ws.Perm ws' ∧
      ∀ f : α → γ → ℝ, (List.zipWith f xs ws).sum = (List.zipWith f ys ws').sum := by
  induction hp generalizing ws with
  | nil => cases h; exact ⟨[], .nil, .nil, fun _ => rfl⟩
  | cons x _ ih =>
    cases h with
    | @cons _ w _ ws h1 h2 =>
      obtain ⟨ws', k1, k2, k3⟩ := ih h2
      refine ⟨w :: ws', .cons h1 k1, k2.cons w, fun f => ?_⟩
      rw [List.zipWith_cons_cons, List.zipWith_cons_cons, List.sum_cons, List.sum_cons, k3]
  | swap x y l =>
    cases h with
    | @cons _ w _ ws h1 h2 =>
      cases h2 with
      | @cons _ v _ ws h2 h3 =>
        refine ⟨v :: w :: ws, .cons h2 (.cons h1 h3), .swap _ _ _, fun f => ?_⟩
        simp only [List.zipWith_cons_cons, List.sum_cons]
        ring
  | trans _ _ ih1 ih2 =>
    obtain ⟨ws', k1, k2, k3⟩ := ih1 h
    obtain ⟨ws'', l1, l2, l3⟩ := ih2 k1
    exact ⟨ws'', l1, k2.trans l2, fun f => (k3 f).trans (l3 f)⟩

/-- A list that belongs to another one, element by element, when that one is replaced. -/
theorem relate_along {R : α → β → Prop} {P : α → γ → Prop} {P' : β → γ → Prop} {V : γ → γ → Prop}
    {xs : List α} {zs : List β} {ws : List γ} (hr : List.Forall₂ R xs zs) (h : List.Forall₂ P xs ws)
    (hv : ∀ x z w, R x z → P x w → ∃ w', P' z w' ∧ V w w') :
    ∃ ws', List.Forall₂ P' zs ws' ∧ List.Forall₂ V ws ws' := by
  induction hr generalizing ws with
  | nil => cases h; exact ⟨[], .nil, .nil⟩
  | cons r1 _ ih =>
    cases h with
    | cons h1 h2 =>
      obtain ⟨ws', k1, k2⟩ := ih h2
      obtain ⟨w', l1, l2⟩ := hv _ _ _ r1 h1
      exact ⟨w' :: ws', .cons l1 k1, .cons l2 k2⟩

theorem zipWith_sum_related {R : α → β → Prop} {V : γ → γ → Prop} {f : α → γ → ℝ} {g : β → γ → ℝ}
    {xs : List α} {zs : List β} {ws ws' : List γ} (hr : List.Forall₂ R xs zs) (hv : List.Forall₂ V ws ws')
    (he : ∀ x z w w', R x z → V w w' → f x w = g z w') :
    (List.zipWith f xs ws).sum = (List.zipWith g zs ws').sum := by
  induction hr generalizing ws ws' with
  | nil => rfl
  | cons r1 _ ih =>
    cases hv with
    | nil => rfl
    | cons v1 v2 =>
      rw [List.zipWith_cons_cons, List.zipWith_cons_cons, List.sum_cons, List.sum_cons, ih v2,
        he _ _ _ _ r1 v1]

theorem map_sum_related {V : γ → γ → Prop} {f : γ → ℝ} {ws ws' : List γ} (hv : List.Forall₂ V ws ws')
    (he : ∀ w w', V w w' → f w = f w') : (ws.map f).sum = (ws'.map f).sum := by
  induction hv with
  | nil => rfl
  | cons v1 _ ih => rw [List.map_cons, List.map_cons, List.sum_cons, List.sum_cons, ih, he _ _ v1]

/-- Two lists that belong to the same list. -/
theorem zipWith_sum_unique {P P' : α → γ → Prop} {f : α → γ → ℝ} {xs : List α} {ws ws' : List γ}
    (h : List.Forall₂ P xs ws) (h' : List.Forall₂ P' xs ws')
    (he : ∀ x w w', P x w → P' x w' → f x w = f x w') :
    (List.zipWith f xs ws).sum = (List.zipWith f xs ws').sum := by
  induction h generalizing ws' with
  | nil => cases h'; rfl
  | cons h1 _ ih =>
    cases h' with
    | cons h1' h2' =>
      rw [List.zipWith_cons_cons, List.zipWith_cons_cons, List.sum_cons, List.sum_cons, ih h2',
        he _ _ _ h1 h1']

theorem map_sum_unique {P P' : α → γ → Prop} {f : γ → ℝ} {xs : List α} {ws ws' : List γ}
    (h : List.Forall₂ P xs ws) (h' : List.Forall₂ P' xs ws')
    (he : ∀ x w w', P x w → P' x w' → f w = f w') : (ws.map f).sum = (ws'.map f).sum := by
  induction h generalizing ws' with
  | nil => cases h'; rfl
  | cons h1 _ ih =>
    cases h' with
    | cons h1' h2' =>
      rw [List.map_cons, List.map_cons, List.sum_cons, List.sum_cons, ih h2', he _ _ _ h1 h1']

theorem Relisted.mem {R : α → β → Prop} {xs : List α} {ys : List β} (h : Relisted R xs ys) {y : β}
    (hy : y ∈ ys) : ∃ x ∈ xs, R x y := by
  obtain ⟨zs, h1, h2⟩ := h
  have hz := h2.mem_iff.mpr hy
  clear h2
  induction h1 with
  | nil => cases hz
  | cons r _ ih =>
    rcases List.mem_cons.mp hz with rfl | hz
    · exact ⟨_, List.mem_cons_self, r⟩
    · obtain ⟨x, hx, hr⟩ := ih hz
      exact ⟨x, List.mem_cons_of_mem _ hx, hr⟩

theorem Relisted.mem_left {R : α → β → Prop} {xs : List α} {ys : List β} (h : Relisted R xs ys) {x : α}
    (hx : x ∈ xs) : ∃ y ∈ ys, R x y := by
  obtain ⟨zs, h1, h2⟩ := h
  have : ∃ y ∈ zs, R x y := by
    clear h2
    induction h1 with
    | nil => cases hx
    | cons r _ ih =>
      rcases List.mem_cons.mp hx with rfl | hx
      · exact ⟨_, List.mem_cons_self, r⟩
      · obtain ⟨y, hy, hr⟩ := ih hx
        exact ⟨y, List.mem_cons_of_mem _ hy, hr⟩
  obtain ⟨y, hy, hr⟩ := this
  exact ⟨y, h2.mem_iff.mp hy, hr⟩

theorem Relisted.map_perm {R : α → β → Prop} {xs : List α} {ys : List β} {f : α → γ} {g : β → γ}
    (h : Relisted R xs ys) (hf : ∀ x y, R x y → f x = g y) : (xs.map f).Perm (ys.map g) := by
  obtain ⟨zs, h1, h2⟩ := h
  refine List.Perm.trans (.of_eq ?_) (h2.map g)
  clear h2
  induction h1 with
  | nil => rfl
  | cons r _ ih => rw [List.map_cons, List.map_cons, ih, hf _ _ r]

theorem Relisted.length_eq {R : α → β → Prop} {xs : List α} {ys : List β} (h : Relisted R xs ys) :
    xs.length = ys.length := by
  obtain ⟨zs, h1, h2⟩ := h
  rw [h1.length_eq, h2.length_eq]

end

/-! ## Breit-Wigner ranges -/

variable {K : Constants} {lib : CoulombLibrary} {neutronMass E : ℝ} {incident target : Str}
  {nro : Option (ℝ → Outcome ℝ)} {naps : ℤ} {multi : Bool}

theorem captureSum_perm {I : ℚ} {w : Wave} {as bs : List Assigned} (h : as.Perm bs) :
    captureSum I E w as = captureSum I E w bs := (h.map _).sum_eq

theorem fissionSum_perm {I : ℚ} {w : Wave} {as bs : List Assigned} (h : as.Perm bs) :
    fissionSum I E w as = fissionSum I E w bs := (h.map _).sum_eq

theorem levelSum_perm {as bs : List Spec.Level} (h : as.Perm bs) : levelSum E as = levelSum E bs :=
  (h.map _).sum_eq

theorem toFinset_perm {α : Type} [DecidableEq α] {as bs : List α} (h : as.Perm bs) :
    as.toFinset = bs.toFinset := List.toFinset_eq_of_perm _ _ h

theorem resonantElastic_perm {I : ℚ} {w : Wave} {as bs : List Assigned} (h : as.Perm bs) :
    resonantElastic multi I E w as = resonantElastic multi I E w bs := by
  unfold resonantElastic
  cases multi with
  | false =>
    simp only [Bool.false_eq_true, if_false]
    unfold singleElastic
    rw [(h.map _).sum_eq]
  | true =>
    simp only [if_true]
    unfold multiElastic
    rw [toFinset_perm (h.map _)]
    congr 2
    refine Finset.sum_congr rfl fun J _ => ?_
    unfold levelCollision
    rw [levelSum_perm ((h.filter _).map _)]

/-- A partial wave with its resonances in another order. -/
theorem partialWave_relisted {k : ℝ → ℝ} {channel scattering : ℝ → Outcome ℝ} {lv lv' : BreitWignerLValue}
    {w : Wave} {as : List Assigned} (hs : SameResolved lv lv')
    (h : IsPartialWave k channel scattering E lv w as) :
    ∃ bs, IsPartialWave k channel scattering E lv' w bs ∧ as.Perm bs := by
  obtain ⟨bs, h1, h2, -⟩ := perm_along hs.resonances h.resonances
  refine ⟨bs, ?_, h2⟩
  obtain ⟨s1, s2, s3, s4, -⟩ := hs
  refine ⟨by rw [← s1]; exact h.l, by rw [← s1]; exact h.own, by rw [← s1]; exact h.phase,
    by rw [← s1, ← s3]; exact h.competitive, ?_⟩
  refine h1.imp fun r a hr => ?_
  refine ⟨hr.J, hr.energy, hr.elastic, hr.capture, hr.fission, by rw [← s4]; exact hr.competition,
    by rw [← s1]; exact hr.own, by rw [← s1, ← s3, ← s4]; exact hr.competitive,
    by rw [← s4]; exact hr.finite⟩

theorem split_first {lvs : List BreitWignerLValue} (h : ∃ x ∈ lvs, x.resonances ≠ []) :
    ∃ before lv after, lvs = before ++ lv :: after ∧ (∀ x ∈ before, x.resonances = []) ∧
      lv.resonances ≠ [] := by
  induction lvs with
  | nil => obtain ⟨x, hx, -⟩ := h; cases hx
  | cons lv lvs ih =>
    by_cases he : lv.resonances = []
    · obtain ⟨before, x, after, h1, h2, h3⟩ := ih (by
        obtain ⟨x, hx, hne⟩ := h
        rcases List.mem_cons.mp hx with rfl | hx
        · exact absurd he hne
        · exact ⟨x, hx, hne⟩)
      refine ⟨lv :: before, x, after, by rw [h1]; rfl, ?_, h3⟩
      intro y hy
      rcases List.mem_cons.mp hy with rfl | hy
      · exact he
      · exact h2 y hy
    · exact ⟨[], lv, lvs, rfl, by simp, he⟩

variable {p p' : BreitWigner} {ws ws' : List (Wave × List Assigned)} {m m' : LegacyID → Option ℝ}

/-- The formula for a range holds for every order in which it may be given. -/
theorem isBreitWigner_relisted (hs : SameBreitWigner p p')
    (ha : ∀ a ∈ p.lValues, ∀ b ∈ p.lValues, a.awri = b.awri)
    (h : IsBreitWigner K neutronMass E incident target nro naps multi p ws m) :
    ∃ ws', IsBreitWigner K neutronMass E incident target nro naps multi p' ws' m := by
  obtain ⟨s1, s2, zs, s3, s4⟩ := hs
  have hmem : Relisted SameResolved p.lValues p'.lValues := ⟨zs, s3, s4⟩
  obtain ⟨vs, v1, v2⟩ := relate_along (P' := fun (lv : BreitWignerLValue) (w : Wave × List Assigned) =>
      if lv.resonances = [] then w.2 = [] else lv.l ≤ 4 ∧
      ∃ channel scattering, IsRadii p.ap nro naps (lv.awri * neutronMass) channel scattering ∧
      IsPartialWave (neutronWaveNumber (waveConstant K.hbar neutronMass) lv.awri) channel scattering E
        lv w.1 w.2) (V := fun w w' => w.1 = w'.1 ∧ w.2.Perm w'.2) s3 h.waves (by
    rintro x z ⟨w, as⟩ hxz hw
    dsimp only at hw ⊢
    by_cases he : x.resonances = []
    · rw [if_pos he] at hw
      refine ⟨⟨w, []⟩, ?_, rfl, by rw [hw]⟩
      rw [if_pos (List.perm_nil.mp (he ▸ hxz.resonances.symm))]
    · rw [if_neg he] at hw
      obtain ⟨hl, channel, scattering, h1, h2⟩ := hw
      obtain ⟨bs, k1, k2⟩ := partialWave_relisted hxz h2
      refine ⟨⟨w, bs⟩, ?_, rfl, k2⟩
      rw [if_neg fun hz : z.resonances = [] => he (List.perm_nil.mp (hz ▸ hxz.resonances))]
      exact ⟨hxz.l ▸ hl, channel, scattering, hxz.awri ▸ h1, hxz.awri ▸ k1⟩)
  obtain ⟨ws', w1, -, w3⟩ := perm_along s4 v1
  have sums : ∀ t : Wave × List Assigned → ℝ, (∀ w as bs, as.Perm bs → t (w, as) = t (w, bs)) →
      (List.zipWith (fun lv w => Real.pi
        / neutronWaveNumber (waveConstant K.hbar neutronMass) lv.awri E ^ 2 * t w) p.lValues ws).sum
      = (List.zipWith (fun lv w => Real.pi
        / neutronWaveNumber (waveConstant K.hbar neutronMass) lv.awri E ^ 2 * t w) p'.lValues ws').sum := by
    intro t ht
    rw [← w3]
    refine zipWith_sum_related s3 v2 ?_
    rintro x z ⟨w, as⟩ ⟨w', bs⟩ hxz ⟨e1, e2⟩
    dsimp only at e1 e2
    subst e1
    rw [hxz.awri, ht _ _ _ e2]
  refine ⟨ws', ?_, ?_, ?_, ?_, h.other⟩
  · rw [← s2]
    exact w1
  · rw [h.capture, ← s1]
    exact congrArg _ (sums (fun w => captureSum p.spin E w.1 w.2) fun _ _ _ h => captureSum_perm h)
  · rw [h.fission, ← s1]
    exact sums (fun w => fissionSum p.spin E w.1 w.2) fun _ _ _ h => fissionSum_perm h
  · obtain ⟨before, lv, after, channel, scattering, radius, lmax, φ, a1, a2, a3, a4, a5, a6, a7, a8, a9,
      a10⟩ := h.elastic
    have hlv : lv ∈ p.lValues := by rw [a1]; simp
    have hre : ∀ {x z : BreitWignerLValue}, SameResolved x z → (x.resonances ≠ [] ↔ z.resonances ≠ []) :=
      fun {x z} hxz => not_congr ⟨fun e => List.perm_nil.mp (e ▸ hxz.resonances.symm),
        fun e => List.perm_nil.mp (e ▸ hxz.resonances)⟩
    obtain ⟨lv', m1, m2⟩ := Relisted.mem_left hmem hlv
    obtain ⟨before', first, after', b1, b2, b3⟩ := split_first ⟨lv', m1, (hre m2).mp a3⟩
    have hfirst : first.awri = lv.awri := by
      obtain ⟨x, hx1, hx2⟩ := Relisted.mem hmem (show first ∈ p'.lValues by rw [b1]; simp)
      rw [← hx2.awri]
      exact ha x hx1 lv hlv
    refine ⟨before', first, after', channel, scattering, radius, lmax, φ, b1, b2, b3, ?_, a5, ?_, ?_, ?_, ?_,
      ?_⟩
    · rw [hfirst, ← s2]
      exact a4
    · intro x hx hne
      obtain ⟨y, hy1, hy2⟩ := Relisted.mem hmem hx
      rw [← hy2.l]
      exact a6 y hy1 ((hre hy2).mpr hne)
    · obtain ⟨x, hx1, hx2, hx3⟩ := a7
      obtain ⟨y, hy1, hy2⟩ := Relisted.mem_left hmem hx1
      exact ⟨y, hy1, (hre hy2).mp hx2, hy2.l ▸ hx3⟩
    · rw [hfirst]
      exact a8
    · rw [hfirst]
      exact a9
    · rw [a10, hfirst, ← s1]
      congr 2
      exact sums (fun w => resonantElastic multi p.spin E w.1 w.2) fun _ _ _ h => resonantElastic_perm h

/-- The formula determines the cross sections. -/
theorem isBreitWigner_unique (h : IsBreitWigner K neutronMass E incident target nro naps multi p ws m)
    (h' : IsBreitWigner K neutronMass E incident target nro naps multi p ws' m') (id : LegacyID) :
    (m id).getD 0 = (m' id).getD 0 := by
  have key : ∀ (lv : BreitWignerLValue) (w w' : Wave × List Assigned),
      (if lv.resonances = [] then w.2 = [] else lv.l ≤ 4 ∧
        ∃ channel scattering, IsRadii p.ap nro naps (lv.awri * neutronMass) channel scattering ∧
          IsPartialWave (neutronWaveNumber (waveConstant K.hbar neutronMass) lv.awri) channel scattering E
            lv w.1 w.2) →
      (if lv.resonances = [] then w'.2 = [] else lv.l ≤ 4 ∧
        ∃ channel scattering, IsRadii p.ap nro naps (lv.awri * neutronMass) channel scattering ∧
          IsPartialWave (neutronWaveNumber (waveConstant K.hbar neutronMass) lv.awri) channel scattering E
            lv w'.1 w'.2) →
      captureSum p.spin E w.1 w.2 = captureSum p.spin E w'.1 w'.2 ∧
      fissionSum p.spin E w.1 w.2 = fissionSum p.spin E w'.1 w'.2 ∧
      resonantElastic multi p.spin E w.1 w.2 = resonantElastic multi p.spin E w'.1 w'.2 := by
    intro lv w w' hw hw'
    by_cases hne : lv.resonances = []
    · rw [if_pos hne] at hw hw'
      rw [hw, hw']
      cases multi <;> simp [captureSum, fissionSum, resonantElastic, multiElastic, singleElastic] <;> ring
    · rw [if_neg hne] at hw hw'
      obtain ⟨-, channel, scattering, q1, q2⟩ := hw
      obtain ⟨-, channel', scattering', q3, q4⟩ := hw'
      have e1 : channel' = channel := funext fun e => (isRadii_unique (e := e) q3 q1).1
      have e2 : scattering' = scattering := funext fun e => (isRadii_unique (e := e) q3 q1).2
      subst e1 e2
      have hsame := forall₂_same q2.resonances q4.resonances
      have hwave : SameWave w.1 w'.1 := by
        obtain ⟨r1, a1, a2, a3⟩ := q2.own
        obtain ⟨r2, b1, b2, b3⟩ := q4.own
        obtain rfl := Except.ok.inj (a1.symm.trans b1)
        obtain ⟨r3, a4, a5⟩ := q2.phase
        obtain ⟨r4, b4, b5⟩ := q4.phase
        obtain rfl := Except.ok.inj (a4.symm.trans b4)
        obtain ⟨r5, a6, a7⟩ := q2.competitive
        obtain ⟨r6, b6, b7⟩ := q4.competitive
        obtain rfl := Except.ok.inj (a6.symm.trans b6)
        exact ⟨a2.trans b2.symm, a7.trans b7.symm, a3.trans b3.symm, a5.trans b5.symm, q2.l.trans q4.l.symm⟩
      exact ⟨Same.captureSum_eq hsame hwave, Same.fissionSum_eq hsame hwave,
        Same.resonantElastic_eq multi hsame hwave⟩
  by_cases hid : ∃ kind, id = ⟨incident, target, kind⟩
  · obtain ⟨kind, rfl⟩ := hid
    cases kind with
    | capture =>
      rw [h.capture, h'.capture]
      refine congrArg (fun x => (some x).getD 0) (zipWith_sum_unique h.waves h'.waves fun lv w w' k k' => ?_)
      rw [(key lv w w' k k').1]
    | fission =>
      rw [h.fission, h'.fission]
      refine zipWith_sum_unique h.waves h'.waves fun lv w w' k k' => ?_
      rw [(key lv w w' k k').2.1]
    | elastic =>
      obtain ⟨before, lv, after, channel, scattering, radius, lmax, φ, a1, a2, a3, a4, a5, a6, a7, a8, -,
        a9⟩ := h.elastic
      obtain ⟨before', lv', after', channel', scattering', radius', lmax', φ', b1, b2, b3, b4, b5, b6, b7, b8,
        -, b9⟩ := h'.elastic
      have hlv : lv = lv' := by
        rw [a1] at b1
        clear * - b1 a2 a3 b2 b3
        induction before generalizing before' with
        | nil =>
          cases before' with
          | nil => exact (List.cons.inj b1).1
          | cons b before' =>
            exact absurd (b2 _ List.mem_cons_self) ((List.cons.inj b1).1 ▸ a3)
        | cons b before ih =>
          cases before' with
          | nil => exact absurd (a2 _ List.mem_cons_self) ((List.cons.inj b1).1 ▸ b3)
          | cons b' before' =>
            exact ih (fun x hx => a2 x (List.mem_cons_of_mem _ hx)) _ (List.cons.inj b1).2
              (fun x hx => b2 x (List.mem_cons_of_mem _ hx))
      subst hlv
      have er : radius' = radius := by
        have := (isRadii_unique (e := E) a4 b4).2
        rw [a5, b5] at this
        exact (Except.ok.inj this).symm
      subst er
      have el : lmax' = lmax := by
        apply le_antisymm
        · obtain ⟨x, hx1, hx2, rfl⟩ := b7
          exact a6 x hx1 hx2
        · obtain ⟨x, hx1, hx2, rfl⟩ := a7
          exact b6 x hx1 hx2
      subst el
      rw [a9, b9]
      refine congrArg (fun x => (some x).getD 0) (congrArg₂ _ ?_ ?_)
      · refine congrArg₂ _ rfl (Finset.sum_congr rfl fun l hl => ?_)
        have hl := Nat.lt_succ_iff.mp (Finset.mem_range.mp hl)
        rw [sin_sq_eq_of_exp ((a8 l hl).trans (b8 l hl).symm)]
      · refine zipWith_sum_unique h.waves h'.waves fun lv w w' k k' => ?_
        rw [(key lv w w' k k').2.2]
  · rw [h.other id fun kind e => hid ⟨kind, e⟩, h'.other id fun kind e => hid ⟨kind, e⟩]

end Verif.Endf
