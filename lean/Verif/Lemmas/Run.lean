import Verif.Model.Run
import Verif.Lemmas.SpinGroup

/-!
# Evaluations that are interrupted: the lazy code does the same as the eager model
-/

namespace Verif

namespace Exec

variable {σ α β : Type}

theorem bind_apply (x : Exec σ α) (f : α → Exec σ β) (s : σ) :
    (x >>= f) s = match x s with
      | (.ok a, s) => f a s
      | (.error e, s) => (.error e, s) := rfl

theorem modify_bind (f : σ → σ) (k : Unit → Exec σ β) (s : σ) :
    (modify f >>= k) s = k () (f s) := rfl

theorem bind_ok {x : Exec σ α} {s t : σ} {a : α} (h : x s = (.ok a, t)) (f : α → Exec σ β) :
    (x >>= f) s = f a t := by
  rw [bind_apply, h]

theorem bind_error {x : Exec σ α} {s t : σ} {e : Failure} (h : x s = (.error e, t))
    (f : α → Exec σ β) : (x >>= f) s = (.error e, t) := by
  rw [bind_apply, h]

theorem lift_bind_ok {o : Outcome α} {a : α} (h : o = .ok a) (f : α → Exec σ β) (s : σ) :
    ((lift o : Exec σ α) >>= f) s = f a s := by subst h; rfl

theorem lift_bind_error {o : Outcome α} {e : Failure} (h : o = .error e) (f : α → Exec σ β) (s : σ) :
    ((lift o : Exec σ α) >>= f) s = (.error e, s) := by subst h; rfl

/-- A loop whose body never fails. -/
theorem forEach_total {f : β → Exec σ Unit} {h : β → σ → σ} {l : List β}
    (hf : ∀ b ∈ l, ∀ s, f b s = (.ok (), h b s)) (s : σ) :
    forEach f l s = (.ok (), l.foldl (fun s b => h b s) s) := by
  induction l generalizing s with
  | nil => rfl
  | cons b l ih =>
    simp only [forEach, Exec.bind, hf b (List.mem_cons_self ..), List.foldl_cons]
    exact ih (fun c hc => hf c (List.mem_cons_of_mem _ hc)) _

theorem forEach_head {f : β → Exec σ Unit} {l : List β} {b : β} {s t : σ} {e : Failure}
    (h : f b s = (.error e, t)) : forEach f (b :: l) s = (.error e, t) := by
  simp only [forEach, Exec.bind, h]

/-- A loop with an element whose body always fails. -/
theorem forEach_fails {f : β → Exec σ Unit} {l : List β} {b : β} (hb : b ∈ l)
    (hf : ∀ s, ∃ e t, f b s = (.error e, t)) (s : σ) : ∃ e t, forEach f l s = (.error e, t) := by
  induction l generalizing s with
  | nil => cases hb
  | cons c l ih =>
    simp only [forEach, Exec.bind]
    rcases hc : f c s with ⟨o, t⟩
    cases o with
    | error e => exact ⟨e, t, rfl⟩
    | ok u =>
      rcases List.mem_cons.mp hb with rfl | hb
      · obtain ⟨e, t', h⟩ := hf s
        rw [h] at hc
        cases hc
      · exact ih hb t

end Exec

namespace Run

variable {option : BoundaryOption} {K : Constants} {lib : CoulombLibrary}

theorem lmatrix_ok {channels : List Channel} {E : ℝ} {d : Fin channels.length → ℂ}
    (h : ∀ i : Fin channels.length, diagonal option K lib E channels[i] = .ok (d i))
    (c : MatrixCache channels.length) :
    lmatrix option K lib channels E c = (.ok (), { c with L := d }) := by
  unfold lmatrix
  rw [Exec.bind_apply]
  refine (Exec.forEach_total (h := fun i c => { c with L := Function.update c.L i (d i) })
    (fun i _ s => Exec.lift_bind_ok (h i) _ s) _).trans ?_
  rw [foldl_L]
  simp

theorem lmatrix_fails {channels : List Channel} {E : ℝ} {i : Fin channels.length} {e : Failure}
    (h : diagonal option K lib E channels[i] = .error e) (c : MatrixCache channels.length) :
    ∃ e t, lmatrix option K lib channels E c = (.error e, t) := by
  unfold lmatrix
  rw [Exec.bind_apply]
  exact Exec.forEach_fails (List.mem_finRange i) (fun s => ⟨e, s, Exec.lift_bind_error h _ s⟩) _

theorem diagonal_ok {E : ℝ} {channel : Channel} {d : ℂ} :
    diagonal option K lib E channel = .ok d ↔
      ∃ P, channel.penetrability K lib E = .ok P ∧
        match option with
        | .shiftFactor => d = ⟨0, P⟩
        | .constant => ∃ S, channel.shiftFactor K lib E = .ok S ∧ d = ⟨S - channel.boundary, P⟩ := by
  unfold diagonal
  cases option with
  | shiftFactor =>
    cases hP : channel.penetrability K lib E with
    | error e => simp [bind, Except.bind]
    | ok P => simp [bind, Except.bind, pure, Except.pure, eq_comm]
  | constant =>
    cases hS : channel.shiftFactor K lib E with
    | error e => simp [bind, Except.bind]
    | ok S =>
      cases hP : channel.penetrability K lib E with
      | error e => simp [bind, Except.bind]
      | ok P => simp [bind, Except.bind, pure, Except.pure, eq_comm]

open Classical in
/-- The matrices after the loops and before the logarithmic derivatives. -/
theorem rlmatrix_eq {channels : List Channel} {resonances : List Resonance} {E : ℝ}
    (hw : ∀ r ∈ resonances, r.widths.length = channels.length)
    (cache : MatrixCache channels.length) :
    rlmatrix option K lib channels resonances E cache =
      match lmatrix option K lib channels E
        { (List.finRange channels.length).foldl
            (fun c i => if channels[i].belowThreshold E then { c with R := zeroRowCol c.R i } else c)
            (resonances.foldl (fun c r => { c with R := c.R + r.rmatrix E channels.length })
              { cache with R := 0 }) with RL := 1 } with
      | (.error e, c) => (.error e, c)
      | (.ok _, c) =>
        if ∃ r ∈ resonances, r.denominator E = 0 then (.error .notFinite, c)
        else if Matrix.det (c.RL - c.R * Matrix.diagonal c.L) = 0 then
          (.error .notFinite, { c with RL := c.RL - c.R * Matrix.diagonal c.L })
        else (.ok ((c.RL - c.R * Matrix.diagonal c.L)⁻¹ * c.R),
          { c with RL := (c.RL - c.R * Matrix.diagonal c.L)⁻¹ * c.R }) := by
  have hR (s : MatrixCache channels.length) :
      Exec.forEach (fun r : Resonance => Exec.modify fun c : MatrixCache channels.length =>
        { c with R := c.R + r.rmatrix E channels.length }) resonances s
      = (.ok (), resonances.foldl
          (fun c r => { c with R := c.R + r.rmatrix E channels.length }) s) :=
    Exec.forEach_total (h := fun (r : Resonance) (c : MatrixCache channels.length) =>
      { c with R := c.R + r.rmatrix E channels.length }) (fun _ _ _ => rfl) s
  have hz (s : MatrixCache channels.length) :
      Exec.forEach (fun i : Fin channels.length => if channels[i].belowThreshold E then
          Exec.modify fun c : MatrixCache channels.length => { c with R := zeroRowCol c.R i }
        else Exec.pure ()) (List.finRange channels.length) s
      = (.ok (), (List.finRange channels.length).foldl
          (fun c i => if channels[i].belowThreshold E then { c with R := zeroRowCol c.R i } else c) s) :=
    Exec.forEach_total (h := fun (i : Fin channels.length) (c : MatrixCache channels.length) =>
      if channels[i].belowThreshold E then { c with R := zeroRowCol c.R i } else c)
      (fun i _ s => by split <;> rfl) s
  unfold rlmatrix
  rw [if_neg (not_not.mpr hw), Exec.modify_bind, Exec.bind_ok (hR _), Exec.bind_ok (hz _),
    Exec.modify_bind, Exec.bind_apply]
  generalize lmatrix option K lib channels E _ = p
  obtain ⟨o, c⟩ := p
  cases o with
  | error e => rfl
  | ok u =>
    simp only
    split
    · rfl
    · exact Exec.modify_bind _ _ c

/-- The matrices of the lazy code are those of the eager model. -/
theorem rlmatrix_ok {channels : List Channel} {resonances : List Resonance} {E : ℝ}
    {cache cache' : MatrixCache channels.length}
    {RL : Matrix (Fin channels.length) (Fin channels.length) ℂ} :
    rlmatrix option K lib channels resonances E cache = (.ok RL, cache') ↔
      RL = cache'.RL ∧ ∃ P : Fin channels.length → ℝ,
        (∀ i : Fin channels.length, channels[i].penetrability K lib E = .ok (P i)) ∧
        Verif.rlmatrix option K lib channels resonances E P cache = .ok cache' := by
  classical
  by_cases hw : ∀ r ∈ resonances, r.widths.length = channels.length
  · rw [rlmatrix_eq hw]
    unfold Verif.rlmatrix
    simp only [if_neg (not_not.mpr hw)]
    generalize hs : (List.finRange channels.length).foldl
      (fun c i => if channels[i].belowThreshold E then { c with R := zeroRowCol c.R i } else c)
      (resonances.foldl (fun c r => { c with R := c.R + r.rmatrix E channels.length })
        { cache with R := 0 }) = s0
    by_cases hd : ∃ d : Fin channels.length → ℂ,
        ∀ i : Fin channels.length, diagonal option K lib E channels[i] = .ok (d i)
    · obtain ⟨d, hd⟩ := hd
      rw [lmatrix_ok hd]
      have hP (i : Fin channels.length) := diagonal_ok.mp (hd i)
      choose P hP hd' using hP
      have hl : Verif.lmatrix option K lib channels E P s0 = .ok { s0 with L := d } := by
        unfold Verif.lmatrix
        cases option with
        | shiftFactor =>
          simp only [pure, Except.pure]
          rw [foldl_L]
          simp only [List.mem_finRange, if_true]
          congr 2
          funext i
          exact (hd' i).symm
        | constant =>
          simp only at hd'
          choose S hS hd' using hd'
          simp only [bind, Except.bind]
          rw [show (collect fun i : Fin channels.length => channels[i].shiftFactor K lib E) = .ok S
            from collect_ok.mpr hS]
          simp only [pure, Except.pure]
          rw [foldl_L (fun i : Fin channels.length => ⟨S i - channels[i].boundary, P i⟩)]
          simp only [List.mem_finRange, if_true]
          congr 2
          funext i
          exact (hd' i).symm
      have hu : ∀ Q : Fin channels.length → ℝ,
          (∀ i : Fin channels.length, channels[i].penetrability K lib E = .ok (Q i)) → Q = P := by
        intro Q hQ
        funext i
        have := (hQ i).symm.trans (hP i)
        simpa using this
      constructor
      · intro h
        simp only at h
        split at h
        · cases h
        rename_i hp
        split at h
        · cases h
        rename_i hdet
        simp only [Prod.mk.injEq, Except.ok.injEq] at h
        obtain ⟨h1, h2⟩ := h
        refine ⟨?_, P, hP, ?_⟩
        · rw [← h1, ← h2]
        · rw [hl]
          simp only
          rw [if_neg hp, if_neg hdet, h2]
      · rintro ⟨h1, Q, hQ, h2⟩
        rw [hu Q hQ, hl] at h2
        simp only at h2
        split at h2
        · cases h2
        rename_i hp
        split at h2
        · cases h2
        rename_i hdet
        simp only [Except.ok.injEq] at h2
        simp only
        rw [if_neg hp, if_neg hdet, h1, ← h2]
    · have hd2 : ∃ i : Fin channels.length, ∃ e, diagonal option K lib E channels[i] = .error e := by
        by_contra hne
        apply hd
        have (i : Fin channels.length) : ∃ d, diagonal option K lib E channels[i] = .ok d := by
          cases h : diagonal option K lib E channels[i] with
          | error e => exact absurd ⟨i, e, h⟩ hne
          | ok d => exact ⟨d, rfl⟩
        choose d hd using this
        exact ⟨d, hd⟩
      obtain ⟨i, e, hi⟩ := hd2
      obtain ⟨e', t, ht⟩ := lmatrix_fails (option := option) (K := K) (lib := lib) hi
        { s0 with RL := 1 }
      rw [ht]
      constructor
      · intro h
        cases h
      · rintro ⟨-, Q, hQ, h2⟩
        exfalso
        apply hd
        cases option with
        | shiftFactor =>
          exact ⟨fun i => ⟨0, Q i⟩, fun i => diagonal_ok.mpr ⟨Q i, hQ i, rfl⟩⟩
        | constant =>
          unfold Verif.lmatrix at h2
          simp only [bind, Except.bind] at h2
          cases hS : collect fun i : Fin channels.length => channels[i].shiftFactor K lib E with
          | error e =>
            rw [hS] at h2
            cases h2
          | ok S =>
            exact ⟨fun i => ⟨S i - channels[i].boundary, Q i⟩, fun i => diagonal_ok.mpr
              ⟨Q i, hQ i, S i, collect_ok.mp hS i, rfl⟩⟩
  · constructor
    · intro h
      unfold rlmatrix at h
      rw [if_pos hw] at h
      cases h
    · rintro ⟨-, P, -, h⟩
      unfold Verif.rlmatrix at h
      rw [if_pos hw] at h
      cases h

theorem sqrtP_ok {E : ℝ} {channel : Channel} {P : ℝ} (h : channel.penetrability K lib E = .ok P)
    (hP : 0 ≤ P) : sqrtP K lib E channel = .ok (Real.sqrt P) := by
  unfold sqrtP
  rw [h]
  simp only [bind, Except.bind]
  rw [if_neg (not_lt.mpr hP)]
  rfl

theorem omega_ok {E : ℝ} {channel : Channel} {w phi : ℝ}
    (hw : channel.coulombPhaseShift K E = .ok w) (hphi : channel.phaseShift K lib E = .ok phi) :
    omega K lib E channel = .ok (Complex.exp ⟨0, w - phi⟩) := by
  unfold omega
  rw [hw, hphi]
  rfl

theorem minusAll_ok {α : Type} {f : α → Outcome ℂ} {v : α → ℂ} (h : ∀ a, f a = .ok (v a))
    (l : List α) (a : ℝ) :
    minusAll f l a = .ok ((l.map fun c => Complex.normSq (v c)).foldl (fun a b => a - b) a) := by
  induction l generalizing a with
  | nil => rfl
  | cons c l ih =>
    simp only [minusAll, h c, bind, Except.bind, ih, List.map_cons, List.foldl_cons]

theorem minusAll_fails {α : Type} {f : α → Outcome ℂ} {l : List α} {c : α} (hc : c ∈ l)
    {e : Failure} (h : f c = .error e) (a : ℝ) : ∃ e, minusAll f l a = .error e := by
  induction l generalizing a with
  | nil => cases hc
  | cons d l ih =>
    simp only [minusAll, bind, Except.bind]
    cases hd : f d with
    | error e => exact ⟨e, rfl⟩
    | ok u =>
      rcases List.mem_cons.mp hc with rfl | hc
      · rw [h] at hd
        cases hd
      · exact ih hc _

variable {g : SpinGroup}

/-- The channel can be evaluated, with a penetrability that has a square root. -/
def Evaluable (K : Constants) (lib : CoulombLibrary) (E : ℝ) (channel : Channel) : Prop :=
  (∃ s, sqrtP K lib E channel = .ok s) ∧ ∃ o, omega K lib E channel = .ok o

theorem evaluable_iff {E : ℝ} {channel : Channel} :
    Evaluable K lib E channel ↔ ∃ P w phi, 0 ≤ P ∧ channel.penetrability K lib E = .ok P ∧
      channel.coulombPhaseShift K E = .ok w ∧ channel.phaseShift K lib E = .ok phi := by
  constructor
  · rintro ⟨⟨s, hs⟩, o, ho⟩
    unfold sqrtP at hs
    unfold omega at ho
    simp only [bind, Except.bind] at hs ho
    cases hP : channel.penetrability K lib E with
    | error e => rw [hP] at hs; cases hs
    | ok P =>
      rw [hP] at hs
      cases hw : channel.coulombPhaseShift K E with
      | error e => rw [hw] at ho; cases ho
      | ok w =>
        rw [hw] at ho
        cases hphi : channel.phaseShift K lib E with
        | error e => rw [hphi] at ho; cases ho
        | ok phi =>
          refine ⟨P, w, phi, ?_, rfl, rfl, rfl⟩
          by_contra hneg
          simp only at hs
          rw [if_pos (not_le.mp hneg)] at hs
          cases hs
  · rintro ⟨P, w, phi, hP, h1, h2, h3⟩
    exact ⟨⟨_, sqrtP_ok h1 hP⟩, _, omega_ok h2 h3⟩

/-- An incident channel when every channel can be evaluated: the eager model. -/
theorem processIncidentChannel_ok {E f : ℝ} {P w phi : Fin g.channels.length → ℝ}
    {RL : Matrix (Fin g.channels.length) (Fin g.channels.length) ℂ}
    (hP0 : ∀ i, 0 ≤ P i)
    (hP : ∀ i : Fin g.channels.length, g.channels[i].penetrability K lib E = .ok (P i))
    (hw : ∀ i : Fin g.channels.length, g.channels[i].coulombPhaseShift K E = .ok (w i))
    (hphi : ∀ i : Fin g.channels.length, g.channels[i].phaseShift K lib E = .ok (phi i))
    (c : Fin g.channels.length) (m : CrossSectionMap) :
    processIncidentChannel K lib g E f RL c m
      = (.ok (), SpinGroup.processIncidentChannel g.reactions ⟨P, w, phi, RL, f⟩ m c) := by
  have hs (i : Fin g.channels.length) := sqrtP_ok (hP i) (hP0 i)
  have ho (i : Fin g.channels.length) := omega_ok (lib := lib) (hw i) (hphi i)
  set p : Prepared g.channels.length := ⟨P, w, phi, RL, f⟩ with hp
  have hu (c' : Fin g.channels.length) :
      uElement K lib g E RL c (Real.sqrt (P c)) (Complex.exp ⟨0, w c - phi c⟩) c'
        = .ok (p.uElement c c') := by
    unfold uElement
    rw [hs c', ho c']
    rfl
  unfold processIncidentChannel
  rw [Exec.lift_bind_ok (hs c), Exec.lift_bind_ok (ho c), Exec.lift_bind_ok (hw c)]
  simp only
  rw [Exec.lift_bind_ok (minusAll_ok hu _ _)]
  have hcs : ((List.finRange g.channels.length).map (fun c' => do
        let value ← uElement K lib g E RL c (Real.sqrt (P c)) (Complex.exp ⟨0, w c - phi c⟩) c'
        pure (f * Complex.normSq ((if c' = c then Complex.exp ⟨0, w c⟩ else 0) - value)))
      ++ [pure (f * ((List.finRange g.channels.length).map fun c' =>
            Complex.normSq (p.uElement c c')).foldl (fun a b => a - b) 1)])
      = (p.crossSections c).map (Except.ok : ℝ → Outcome ℝ) := by
    unfold Prepared.crossSections Prepared.capture Prepared.sigma
    rw [List.ofFn_eq_map, List.ofFn_eq_map]
    simp only [hu, List.map_append, List.map_map, List.map_cons, List.map_nil]
    rfl
  rw [hcs]
  unfold SpinGroup.processIncidentChannel
  rw [List.zip_map_right]
  refine (Exec.forEach_total (h := fun e m => match e.2 with
    | .ok v => m.add e.1 v
    | .error _ => m) ?_ m).trans ?_
  · intro b hb s
    obtain ⟨e, -, rfl⟩ := List.mem_map.mp hb
    rfl
  · rw [List.foldl_map]
    rfl

/-- An incident channel when some channel cannot be evaluated: it fails before it writes. -/
theorem processIncidentChannel_fails {E f : ℝ}
    {RL : Matrix (Fin g.channels.length) (Fin g.channels.length) ℂ}
    {i : Fin g.channels.length} (hi : ¬ Evaluable K lib E g.channels[i])
    (c : Fin g.channels.length) :
    ∃ e, ∀ m, processIncidentChannel K lib g E f RL c m = (.error e, m) := by
  unfold processIncidentChannel
  cases hs : sqrtP K lib E g.channels[c] with
  | error e => exact ⟨e, fun m => Exec.lift_bind_error rfl _ m⟩
  | ok s =>
    cases ho : omega K lib E g.channels[c] with
    | error e => exact ⟨e, fun m => rfl⟩
    | ok o =>
      cases hw : g.channels[c].coulombPhaseShift K E with
      | error e => exact ⟨e, fun m => rfl⟩
      | ok w =>
        have hu : ∃ e, uElement K lib g E RL c s o i = .error e := by
          unfold uElement
          cases hsi : sqrtP K lib E g.channels[i] with
          | error e => exact ⟨e, rfl⟩
          | ok si =>
            cases hoi : omega K lib E g.channels[i] with
            | error e => exact ⟨e, rfl⟩
            | ok oi => exact absurd ⟨⟨si, hsi⟩, oi, hoi⟩ hi
        obtain ⟨e, hu⟩ := hu
        obtain ⟨e', he'⟩ := minusAll_fails (List.mem_finRange i) hu 1
        refine ⟨e', fun m => ?_⟩
        exact Exec.lift_bind_error he' _ m

/-- A spin group that returns gives what the eager model gives, and the other way round. -/
theorem spinGroup_ok {E : ℝ} {m m' : CrossSectionMap} {cache cache' : MatrixCache g.channels.length} :
    spinGroup option K lib g E (m, cache) = (.ok (), m', cache') ↔
      g.evaluate option K lib E cache m = .ok (m', cache') := by
  have hev : g.evaluate option K lib E cache m = .ok (m', cache') ↔ ∃ p,
      g.prepare option K lib E cache = .ok (p, cache') ∧
      m' = g.incident.foldl (SpinGroup.processIncidentChannel g.reactions p) m := by
    unfold SpinGroup.evaluate
    cases h : g.prepare option K lib E cache with
    | error e => simp [bind, Except.bind]
    | ok v =>
      obtain ⟨p, c⟩ := v
      simp only [bind, Except.bind, pure, Except.pure, Except.ok.injEq, Prod.mk.injEq]
      constructor
      · rintro ⟨h1, h2⟩
        exact ⟨p, ⟨rfl, h2⟩, h1.symm⟩
      · rintro ⟨q, ⟨h1, h2⟩, h3⟩
        subst h1
        exact ⟨h3.symm, h2⟩
  rw [hev]
  unfold spinGroup
  simp only
  by_cases hall : ∀ i : Fin g.channels.length, Evaluable K lib E g.channels[i]
  · have hall' (i : Fin g.channels.length) := evaluable_iff.mp (hall i)
    choose P w phi hP0 hP hw hphi using hall'
    constructor
    · intro h
      split at h
      · cases h
      rename_i RL c hrl
      cases hf : factor K g E with
      | error e => rw [hf] at h; cases h
      | ok f =>
        rw [hf] at h
        simp only at h
        have hloop := Exec.forEach_total (l := g.incident)
          (h := fun c m => SpinGroup.processIncidentChannel g.reactions ⟨P, w, phi, RL, f⟩ m c)
          (fun c _ m => processIncidentChannel_ok (f := f) (RL := RL) hP0 hP hw hphi c m) m
        rw [hloop] at h
        simp only [Prod.mk.injEq, true_and] at h
        obtain ⟨h1, h2⟩ := h
        subst h2
        obtain ⟨hRL, Q, hQ, hrl⟩ := rlmatrix_ok.mp hrl
        have : Q = P := by
          funext i
          have := (hQ i).symm.trans (hP i)
          simpa using this
        subst this
        refine ⟨⟨Q, w, phi, RL, f⟩, prepare_ok.mpr ⟨hP, hw, hphi, hP0, hrl, hRL, ?_⟩, h1.symm⟩
        unfold factor at hf
        split at hf
        · cases hf
        · rename_i first rest hinc
          refine ⟨first, rest, hinc, ?_⟩
          simp only at hf
          split at hf
          · cases hf
          · rename_i hk
            exact ⟨hk, (Except.ok.inj hf).symm⟩
    · rintro ⟨p, hp, hm⟩
      obtain ⟨h1, h2, h3, h4, h5, h6, first, rest, h7, h8, h9⟩ := prepare_ok.mp hp
      rw [rlmatrix_ok.mpr ⟨rfl, p.P, h1, h5⟩]
      have hf : factor K g E = .ok p.factor := by
        unfold factor
        rw [h7]
        simp only
        rw [if_neg h8, h9]
      rw [hf]
      simp only
      have hloop := Exec.forEach_total (l := g.incident)
        (h := fun c m => SpinGroup.processIncidentChannel g.reactions
          ⟨p.P, p.w, p.phi, cache'.RL, p.factor⟩ m c)
        (fun c _ m => processIncidentChannel_ok (f := p.factor) (RL := cache'.RL) h4 h1 h2 h3 c m) m
      rw [hloop, hm, ← h6]
  · push Not at hall
    obtain ⟨i, hi⟩ := hall
    constructor
    · intro h
      split at h
      · cases h
      rename_i RL c hrl
      cases hf : factor K g E with
      | error e => rw [hf] at h; cases h
      | ok f =>
        rw [hf] at h
        simp only at h
        unfold factor at hf
        split at hf
        · cases hf
        · rename_i first rest hinc
          obtain ⟨e, he⟩ := processIncidentChannel_fails (f := f) (RL := RL) hi first
          rw [hinc] at h
          simp only [Exec.forEach, Exec.bind, he] at h
          cases h
    · rintro ⟨p, hp, -⟩
      obtain ⟨h1, h2, h3, h4, -⟩ := prepare_ok.mp hp
      exact absurd (evaluable_iff.mpr ⟨p.P i, p.w i, p.phi i, h4 i, h1 i, h2 i, h3 i⟩) hi

/-- A spin group that fails has not written to the map. -/
theorem spinGroup_fails {E : ℝ} {m m' : CrossSectionMap} {cache cache' : MatrixCache g.channels.length}
    {e : Failure} (h : spinGroup option K lib g E (m, cache) = (.error e, m', cache')) : m' = m := by
  unfold spinGroup at h
  simp only at h
  split at h
  · simp only [Prod.mk.injEq] at h
    exact h.2.1.symm
  · rename_i RL c hrl
    cases hf : factor K g E with
    | error e =>
      rw [hf] at h
      simp only [Prod.mk.injEq] at h
      exact h.2.1.symm
    | ok f =>
      rw [hf] at h
      simp only at h
      by_cases hall : ∀ i : Fin g.channels.length, Evaluable K lib E g.channels[i]
      · have hall' (i : Fin g.channels.length) := evaluable_iff.mp (hall i)
        choose P w phi hP0 hP hw hphi using hall'
        have hloop := Exec.forEach_total (l := g.incident)
          (h := fun c m => SpinGroup.processIncidentChannel g.reactions ⟨P, w, phi, RL, f⟩ m c)
          (fun c _ m => processIncidentChannel_ok (f := f) (RL := RL) hP0 hP hw hphi c m) m
        rw [hloop] at h
        cases h
      · push Not at hall
        obtain ⟨i, hi⟩ := hall
        unfold factor at hf
        split at hf
        · cases hf
        · rename_i first rest hinc
          obtain ⟨e, he⟩ := processIncidentChannel_fails (f := f) (RL := RL) hi first
          rw [hinc] at h
          simp only [Exec.forEach, Exec.bind, he, Prod.mk.injEq] at h
          exact h.2.1.symm

/-- A spin group that throws has not written to the map of T-matrix elements. -/
theorem spinGroupTMatrix_throws {E : ℝ} {m m' : Str → Option ℂ}
    {cache cache' : MatrixCache g.channels.length}
    (h : spinGroupTMatrix option K lib g E (m, cache) = (.error .throws, m', cache')) : m' = m := by
  unfold spinGroupTMatrix at h
  simp only at h
  split at h
  · simp only [Prod.mk.injEq] at h
    exact h.2.1.symm
  · rename_i RL c hrl
    exfalso
    obtain ⟨-, P, hP, -⟩ := rlmatrix_ok.mp hrl
    have hs (i : Fin g.channels.length) (e : Failure)
        (he : sqrtP K lib E g.channels[i] = .error e) : e = .notFinite := by
      unfold sqrtP at he
      rw [hP i] at he
      simp only [bind, Except.bind] at he
      split at he
      · exact (Except.error.inj he).symm
      · cases he
    have key {β : Type} (f : β → Exec (Str → Option ℂ) Unit)
        (hf : ∀ b s, (f b s).1 ≠ .error .throws) (l : List β) (s : Str → Option ℂ) :
        (Exec.forEach f l s).1 ≠ .error .throws := by
      induction l generalizing s with
      | nil => exact fun h => by cases h
      | cons b l ih =>
        simp only [Exec.forEach, Exec.bind]
        have := hf b s
        rcases hb : f b s with ⟨o, t⟩
        rw [hb] at this
        cases o with
        | error e => exact this
        | ok u => exact ih t
    have h1 := congrArg Prod.fst h
    simp only at h1
    refine key _ ?_ _ _ h1
    intro c s
    cases hc : sqrtP K lib E g.channels[c] with
    | error e =>
      rw [hs c e hc]
      exact fun h => by cases h
    | ok v =>
      refine key _ ?_ _ _
      intro c' s
      cases hc' : sqrtP K lib E g.channels[c'] with
      | error e =>
        rw [hs c' e hc']
        exact fun h => by cases h
      | ok v => exact fun h => by cases h

/-- T-matrix elements: a spin group that returns gives what the eager model gives. -/
theorem spinGroupTMatrix_ok {E : ℝ} {m m' : Str → Option ℂ}
    {cache cache' : MatrixCache g.channels.length} :
    spinGroupTMatrix option K lib g E (m, cache) = (.ok (), m', cache') ↔
      g.evaluateTMatrix option K lib E cache m = .ok (m', cache') := by
  unfold spinGroupTMatrix SpinGroup.evaluateTMatrix
  simp only [bind, Except.bind]
  rcases hrl : rlmatrix option K lib g.channels g.table.resonances E cache with ⟨o, c⟩
  cases o with
  | error e =>
    constructor
    · intro h
      cases h
    · intro h
      exfalso
      cases hP : collect fun i : Fin g.channels.length => g.channels[i].penetrability K lib E with
      | error e => rw [hP] at h; cases h
      | ok P =>
        rw [hP] at h
        simp only at h
        split at h
        · cases h
        · cases hv : Verif.rlmatrix option K lib g.channels g.table.resonances E P cache with
          | error e => rw [hv] at h; cases h
          | ok c2 =>
            have := rlmatrix_ok.mpr ⟨rfl, P, collect_ok.mp hP, hv⟩
            rw [hrl] at this
            cases this
  | ok RL =>
    obtain ⟨hRL, P, hP, hv⟩ := rlmatrix_ok.mp hrl
    rw [show (collect fun i : Fin g.channels.length => g.channels[i].penetrability K lib E) = .ok P
      from collect_ok.mpr hP]
    simp only
    by_cases hneg : ∃ i, P i < 0
    · rw [if_pos hneg]
      obtain ⟨i, hi⟩ := hneg
      have hs : sqrtP K lib E g.channels[i] = .error .notFinite := by
        unfold sqrtP
        rw [hP i]
        simp only [bind, Except.bind]
        rw [if_pos hi]
      constructor
      · intro h
        obtain ⟨e, t, ht⟩ := Exec.forEach_fails (List.mem_finRange i)
          (f := fun c => do
            let current ← Exec.lift (sqrtP K lib E g.channels[c])
            Exec.forEach (fun c' => do
              let s ← Exec.lift (sqrtP K lib E g.channels[c'])
              Exec.modify fun m => Function.update m (tMatrixKey g.channels[c].id g.channels[c'].id)
                (some ((current : ℂ) * RL c' c * (s : ℂ)))) (List.finRange g.channels.length))
          (fun s => ⟨_, s, Exec.lift_bind_error hs _ s⟩) m
        have h1 := congrArg Prod.fst h
        simp only at h1
        simp only [bind] at ht
        rw [ht] at h1
        cases h1
      · intro h
        cases h
    · rw [if_neg hneg, hv]
      push Not at hneg
      have hs (i : Fin g.channels.length) := sqrtP_ok (hP i) (hneg i)
      have hloop := Exec.forEach_total (l := List.finRange g.channels.length)
          (f := fun c => do
            let current ← Exec.lift (sqrtP K lib E g.channels[c])
            Exec.forEach (fun c' => do
              let s ← Exec.lift (sqrtP K lib E g.channels[c'])
              Exec.modify fun m => Function.update m (tMatrixKey g.channels[c].id g.channels[c'].id)
                (some ((current : ℂ) * RL c' c * (s : ℂ)))) (List.finRange g.channels.length))
          (h := fun c m => (List.finRange g.channels.length).foldl (fun m c' =>
            Function.update m (tMatrixKey g.channels[c].id g.channels[c'].id)
              (some ((Real.sqrt (P c) : ℂ) * RL c' c * (Real.sqrt (P c') : ℂ)))) m)
          (fun c _ m => (Exec.lift_bind_ok (hs c) _ m).trans (Exec.forEach_total
            (h := fun c' m => Function.update m (tMatrixKey g.channels[c].id g.channels[c'].id)
              (some ((Real.sqrt (P c) : ℂ) * RL c' c * (Real.sqrt (P c') : ℂ))))
            (fun c' _ m => Exec.lift_bind_ok (hs c') _ m) m)) m
      simp only [bind] at hloop
      rw [hloop, hRL]
      simp only [pure, Except.pure, Prod.mk.injEq, true_and, Except.ok.injEq]

/-! ## Compound systems -/

theorem system_ok {E : ℝ} {s s' : CompoundSystem} {m m' : CrossSectionMap} :
    system option K lib E s m = (.ok (), m', s') ↔
      CompoundSystem.evaluate option K lib E s m = .ok (m', s') := by
  induction s generalizing m m' s' with
  | nil => simp [system, CompoundSystem.evaluate]
  | cons a s ih =>
    simp only [system, CompoundSystem.evaluate, bind, Except.bind]
    rcases hg : spinGroup option K lib a.group E (m, a.cache) with ⟨o, m1, c1⟩
    cases o with
    | error e =>
      cases hv : a.group.evaluate option K lib E a.cache m with
      | error e => simp
      | ok v =>
        obtain ⟨m2, c2⟩ := v
        rw [spinGroup_ok.mpr hv] at hg
        cases hg
    | ok u =>
      rw [spinGroup_ok.mp hg]
      simp only
      rcases hr : system option K lib E s m1 with ⟨o, m2, s2⟩
      cases o with
      | error e =>
        cases hv : CompoundSystem.evaluate option K lib E s m1 with
        | error e => simp
        | ok v =>
          obtain ⟨m3, s3⟩ := v
          rw [ih.mpr hv] at hr
          cases hr
      | ok u =>
        rw [ih.mp hr]
        simp [pure, Except.pure]

theorem system_groups {E : ℝ} (s : CompoundSystem) (m : CrossSectionMap) :
    (system option K lib E s m).2.2.map GroupState.group = s.map GroupState.group := by
  induction s generalizing m with
  | nil => rfl
  | cons a s ih =>
    simp only [system]
    rcases spinGroup option K lib a.group E (m, a.cache) with ⟨o, m1, c1⟩
    cases o with
    | error e => rfl
    | ok u =>
      exact congrArg (a.group :: ·) (ih m1)

/-- Where a system fails: the groups before the failing one are in the map, nothing else. -/
theorem system_fails {E : ℝ} {s s' : CompoundSystem} {m m' : CrossSectionMap} {e : Failure}
    (h : system option K lib E s m = (.error e, m', s')) :
    ∃ before failing after before', s = before ++ failing :: after ∧
      CompoundSystem.evaluate option K lib E before m = .ok (m', before') ∧
      (spinGroup option K lib failing.group E (m', failing.cache)).1 = .error e := by
  induction s generalizing m s' with
  | nil => cases h
  | cons a s ih =>
    simp only [system] at h
    rcases hg : spinGroup option K lib a.group E (m, a.cache) with ⟨o, m1, c1⟩
    rw [hg] at h
    cases o with
    | error e' =>
      simp only [Prod.mk.injEq, Except.error.injEq] at h
      have := spinGroup_fails hg
      obtain ⟨rfl, rfl, -⟩ := h
      subst this
      exact ⟨[], a, s, [], rfl, rfl, by rw [hg]⟩
    | ok u =>
      simp only at h
      rcases hr : system option K lib E s m1 with ⟨o, m2, s2⟩
      rw [hr] at h
      simp only [Prod.mk.injEq] at h
      obtain ⟨rfl, rfl, -⟩ := h
      obtain ⟨b, f, t, b', h1, h2, h3⟩ := ih hr
      refine ⟨a :: b, f, t, ⟨a.group, c1⟩ :: b', by rw [h1]; rfl, ?_, h3⟩
      simp only [CompoundSystem.evaluate, bind, Except.bind, spinGroup_ok.mp hg, h2]
      rfl

theorem systemTMatrix_groups {E : ℝ} (s : CompoundSystem) (m : Str → Option ℂ) :
    (systemTMatrix option K lib E s m).2.2.map GroupState.group = s.map GroupState.group := by
  induction s generalizing m with
  | nil => rfl
  | cons a s ih =>
    simp only [systemTMatrix]
    rcases spinGroupTMatrix option K lib a.group E (m, a.cache) with ⟨o, m1, c1⟩
    cases o with
    | error e => rfl
    | ok u =>
      exact congrArg (a.group :: ·) (ih m1)

theorem systemTMatrix_ok {E : ℝ} {s s' : CompoundSystem} {m m' : Str → Option ℂ} :
    systemTMatrix option K lib E s m = (.ok (), m', s') ↔
      CompoundSystem.evaluateTMatrix option K lib E s m = .ok (m', s') := by
  induction s generalizing m m' s' with
  | nil => simp [systemTMatrix, CompoundSystem.evaluateTMatrix]
  | cons a s ih =>
    simp only [systemTMatrix, CompoundSystem.evaluateTMatrix, bind, Except.bind]
    rcases hg : spinGroupTMatrix option K lib a.group E (m, a.cache) with ⟨o, m1, c1⟩
    cases o with
    | error e =>
      cases hv : a.group.evaluateTMatrix option K lib E a.cache m with
      | error e => simp
      | ok v =>
        obtain ⟨m2, c2⟩ := v
        rw [spinGroupTMatrix_ok.mpr hv] at hg
        cases hg
    | ok u =>
      rw [spinGroupTMatrix_ok.mp hg]
      simp only
      rcases hr : systemTMatrix option K lib E s m1 with ⟨o, m2, s2⟩
      cases o with
      | error e =>
        cases hv : CompoundSystem.evaluateTMatrix option K lib E s m1 with
        | error e => simp
        | ok v =>
          obtain ⟨m3, s3⟩ := v
          rw [ih.mpr hv] at hr
          cases hr
      | ok u =>
        rw [ih.mp hr]
        simp [pure, Except.pure]

/-! ## Legacy spin groups -/

theorem precompute_content {E : ℝ} {g g' : BreitWigner.SpinGroup}
    (h : g.precompute K lib E = .ok g') :
    g'.channel = g.channel ∧ g'.resonances = g.resonances ∧ g'.qx = g.qx := by
  unfold BreitWigner.SpinGroup.precompute at h
  simp only [bind, Except.bind] at h
  split at h
  · cases h
  split at h
  · cases h
  split at h
  · cases h
  simp only [pure, Except.pure, Except.ok.injEq] at h
  subst h
  exact ⟨rfl, rfl, rfl⟩

theorem singleLevel_ok {E : ℝ} {g g' : BreitWigner.SpinGroup} {m m' : LegacyMap} :
    singleLevel K lib E g m = (.ok (), m', g') ↔ g.evaluateSLBW K lib E m = .ok (m', g') := by
  unfold singleLevel BreitWigner.SpinGroup.evaluateSLBW
  simp only [bind, Except.bind]
  cases g.channel.penetrability K lib E with
  | error e => simp
  | ok p =>
    simp only
    cases g.competitionPenetrability K lib E p with
    | error e => simp
    | ok q =>
      simp only
      cases g.channel.shiftFactor K lib E with
      | error e => simp
      | ok s =>
        simp only
        cases g.channel.phaseShift K lib E with
        | error e => simp
        | ok phi =>
          simp only
          by_cases hk : g.channel.waveNumber K E = 0
          · simp [hk]
          · simp only [hk, if_false]
            cases g.precompute K lib E with
            | error e => simp
            | ok g1 =>
              simp only
              by_cases hd : (0 : ℝ) ∈ g1.cache.denominator
              · simp [hd]
              · simp [hd, pure, Except.pure]

theorem singleLevel_fails {E : ℝ} {g g' : BreitWigner.SpinGroup} {m m' : LegacyMap} {e : Failure}
    (h : singleLevel K lib E g m = (.error e, m', g')) : m' = m := by
  unfold singleLevel at h
  simp only at h
  split at h
  · simp only [Prod.mk.injEq] at h
    exact h.2.1.symm
  · split at h
    · simp only [Prod.mk.injEq] at h
      exact h.2.1.symm
    · split at h
      · simp only [Prod.mk.injEq] at h
        exact h.2.1.symm
      · split at h
        · simp only [Prod.mk.injEq] at h
          exact h.2.1.symm
        · cases h

theorem singleLevel_content {E : ℝ} (g : BreitWigner.SpinGroup) (m : LegacyMap) :
    (singleLevel K lib E g m).2.2.channel = g.channel ∧
      (singleLevel K lib E g m).2.2.resonances = g.resonances ∧
      (singleLevel K lib E g m).2.2.qx = g.qx := by
  unfold singleLevel
  simp only
  split
  · exact ⟨rfl, rfl, rfl⟩
  · split
    · exact ⟨rfl, rfl, rfl⟩
    · split
      · exact ⟨rfl, rfl, rfl⟩
      · rename_i h
        split
        · exact precompute_content h
        · exact precompute_content h

theorem multiLevel_ok {E : ℝ} {g g' : BreitWigner.SpinGroup} {m m' : LegacyMap} :
    multiLevel K lib E g m = (.ok (), m', g') ↔ g.evaluateMLBW K lib E m = .ok (m', g') := by
  unfold multiLevel BreitWigner.SpinGroup.evaluateMLBW
  simp only [bind, Except.bind]
  rcases h : singleLevel K lib E g m with ⟨o, m1, g1⟩
  cases o with
  | error e =>
    cases hv : g.evaluateSLBW K lib E m with
    | error e => simp
    | ok v =>
      obtain ⟨m2, g2⟩ := v
      rw [singleLevel_ok.mpr hv] at h
      cases h
  | ok u =>
    rw [singleLevel_ok.mp h]
    simp [pure, Except.pure]

theorem multiLevel_fails {E : ℝ} {g g' : BreitWigner.SpinGroup} {m m' : LegacyMap} {e : Failure}
    (h : multiLevel K lib E g m = (.error e, m', g')) : m' = m := by
  unfold multiLevel at h
  simp only at h
  rcases hs : singleLevel K lib E g m with ⟨o, m1, g1⟩
  rw [hs] at h
  cases o with
  | error e =>
    simp only [Prod.mk.injEq] at h
    rw [← h.2.1]
    exact singleLevel_fails hs
  | ok u => cases h

theorem multiLevel_content {E : ℝ} (g : BreitWigner.SpinGroup) (m : LegacyMap) :
    (multiLevel K lib E g m).2.2.channel = g.channel ∧
      (multiLevel K lib E g m).2.2.resonances = g.resonances ∧
      (multiLevel K lib E g m).2.2.qx = g.qx := by
  have := singleLevel_content (K := K) (lib := lib) (E := E) g m
  unfold multiLevel
  simp only
  rcases hs : singleLevel K lib E g m with ⟨o, m1, g1⟩
  rw [hs] at this
  cases o <;> exact this

theorem unresolved_ok {E : ℝ} {g g' : Unresolved.SpinGroup} {m m' : LegacyMap} :
    unresolved K lib E g m = (.ok (), m', g') ↔ g.evaluate K lib E m = .ok (m', g') := by
  unfold unresolved
  split
  · rename_i h
    rw [h]
    simp
  · rename_i h
    rw [h]
    simp

theorem unresolved_fails {E : ℝ} {g g' : Unresolved.SpinGroup} {m m' : LegacyMap} {e : Failure}
    (h : unresolved K lib E g m = (.error e, m', g')) : m' = m := by
  unfold unresolved at h
  split at h
  · simp only [Prod.mk.injEq] at h
    exact h.2.1.symm
  · cases h

theorem unresolved_content {E : ℝ} (g : Unresolved.SpinGroup) (m : LegacyMap) :
    (unresolved K lib E g m).2.2 = g := by
  unfold unresolved
  split
  · rfl
  · rename_i m' g' h
    unfold Unresolved.SpinGroup.evaluate at h
    simp only [bind, Except.bind] at h
    repeat' (split at h <;> try (cases h; done))
    all_goals simp only [pure, Except.pure, Except.ok.injEq, Prod.mk.injEq] at h
    all_goals exact h.2.symm

/-! ## Legacy systems -/

section Legacy

variable {G : Type} {run : G → LegacyMap → Outcome Unit × LegacyMap × G}
  {step : G → LegacyMap → Outcome (LegacyMap × G)} {channel : G → Channel}

theorem legacyGroups_ok
    (hok : ∀ g m m' g', run g m = (.ok (), m', g') ↔ step g m = .ok (m', g'))
    {gs gs' : List G} {m m' : LegacyMap} :
    legacyGroups run gs m = (.ok (), m', gs') ↔
      LegacySystem.evaluateGroups step gs m = .ok (m', gs') := by
  induction gs generalizing m m' gs' with
  | nil => simp [legacyGroups, LegacySystem.evaluateGroups]
  | cons a s ih =>
    simp only [legacyGroups, LegacySystem.evaluateGroups, bind, Except.bind]
    rcases hg : run a m with ⟨o, m1, c1⟩
    cases o with
    | error e =>
      cases hv : step a m with
      | error e => simp
      | ok v =>
        obtain ⟨m2, c2⟩ := v
        rw [(hok ..).mpr hv] at hg
        cases hg
    | ok u =>
      rw [(hok ..).mp hg]
      simp only
      rcases hr : legacyGroups run s m1 with ⟨o, m2, s2⟩
      cases o with
      | error e =>
        cases hv : LegacySystem.evaluateGroups step s m1 with
        | error e => simp
        | ok v =>
          obtain ⟨m3, s3⟩ := v
          rw [ih.mpr hv] at hr
          cases hr
      | ok u =>
        rw [ih.mp hr]
        simp [pure, Except.pure]

theorem legacyGroups_map {α : Type} {f : G → α} (hf : ∀ g m, f (run g m).2.2 = f g)
    (gs : List G) (m : LegacyMap) : (legacyGroups run gs m).2.2.map f = gs.map f := by
  induction gs generalizing m with
  | nil => rfl
  | cons a s ih =>
    have h1 := hf a m
    simp only [legacyGroups]
    rcases hg : run a m with ⟨o, m1, c1⟩
    rw [hg] at h1
    cases o with
    | error e => exact congrArg (· :: s.map f) h1
    | ok u => exact congrArg₂ List.cons h1 (ih m1)

theorem legacyGroups_fails
    (hok : ∀ g m m' g', run g m = (.ok (), m', g') ↔ step g m = .ok (m', g'))
    (hfail : ∀ g m e m' g', run g m = (.error e, m', g') → m' = m)
    {gs gs' : List G} {m m' : LegacyMap} {e : Failure}
    (h : legacyGroups run gs m = (.error e, m', gs')) :
    ∃ before failing after before', gs = before ++ failing :: after ∧
      LegacySystem.evaluateGroups step before m = .ok (m', before') ∧
      (run failing m').1 = .error e := by
  induction gs generalizing m gs' with
  | nil => cases h
  | cons a s ih =>
    simp only [legacyGroups] at h
    rcases hg : run a m with ⟨o, m1, c1⟩
    rw [hg] at h
    cases o with
    | error e' =>
      simp only [Prod.mk.injEq, Except.error.injEq] at h
      have := hfail _ _ _ _ _ hg
      obtain ⟨rfl, rfl, -⟩ := h
      subst this
      exact ⟨[], a, s, [], rfl, rfl, by rw [hg]⟩
    | ok u =>
      simp only at h
      rcases hr : legacyGroups run s m1 with ⟨o, m2, s2⟩
      rw [hr] at h
      simp only [Prod.mk.injEq] at h
      obtain ⟨rfl, rfl, -⟩ := h
      obtain ⟨b, f, t, b', h1, h2, h3⟩ := ih hr
      refine ⟨a :: b, f, t, c1 :: b', by rw [h1]; rfl, ?_, h3⟩
      simp only [LegacySystem.evaluateGroups, bind, Except.bind, (hok ..).mp hg, h2]
      rfl

theorem legacySystem_ok
    (hok : ∀ g m m' g', run g m = (.ok (), m', g') ↔ step g m = .ok (m', g'))
    {E : ℝ} {s s' : LegacySystem G} {m m' : LegacyMap} :
    legacySystem K lib channel run E s m = (.ok (), m', s') ↔
      s.evaluate K lib channel step E m = .ok (m', s') := by
  unfold legacySystem LegacySystem.evaluate
  simp only [bind, Except.bind]
  rcases hg : legacyGroups run s.groups m with ⟨o, m1, gs⟩
  cases o with
  | error e =>
    cases hv : LegacySystem.evaluateGroups step s.groups m with
    | error e => simp
    | ok v =>
      obtain ⟨m2, c2⟩ := v
      rw [(legacyGroups_ok hok).mpr hv] at hg
      cases hg
  | ok u =>
    rw [(legacyGroups_ok hok).mp hg]
    simp only
    cases gs with
    | nil => simp
    | cons first rest =>
      simp only
      cases (channel first).radii.phaseShift E with
      | error e => simp
      | ok radius =>
        simp only
        by_cases hk : (channel first).waveNumber K E = 0
        · simp [hk]
        · simp only [hk, if_false]
          cases LegacySystem.potential lib ((channel first).waveNumber K E * radius) s.lmax with
          | error e => simp
          | ok v => simp [pure, Except.pure]

theorem legacySystem_map {α : Type} {f : G → α} (hf : ∀ g m, f (run g m).2.2 = f g) {E : ℝ}
    (s : LegacySystem G) (m : LegacyMap) :
    (legacySystem K lib channel run E s m).2.2.groups.map f = s.groups.map f ∧
      (legacySystem K lib channel run E s m).2.2.lmax = s.lmax := by
  have := legacyGroups_map hf s.groups m
  unfold legacySystem
  rcases hg : legacyGroups run s.groups m with ⟨o, m1, gs⟩
  rw [hg] at this
  cases o with
  | error e => exact ⟨this, rfl⟩
  | ok u =>
    cases gs with
    | nil => exact ⟨this, rfl⟩
    | cons first rest =>
      simp only
      split <;> exact ⟨this, rfl⟩

end Legacy

end Run

end Verif
