import Verif.Model.CompoundSystem

/-!
# Lemmas about sorted ranges, channel data and resonance tables
-/

namespace Verif

section sortUnique

variable {α : Type*} [LinearOrder α]

theorem mem_destutter'_ne (a b : α) (l : List α) :
    b ∈ l.destutter' (· ≠ ·) a ↔ b = a ∨ b ∈ l := by
  induction l generalizing a with
  | nil => simp
  | cons x l ih =>
    rw [List.destutter'_cons]
    split
    · rw [List.mem_cons, ih, List.mem_cons]
    · rename_i h
      rw [not_not] at h
      subst h
      rw [ih, List.mem_cons]
      tauto

theorem mem_destutter_ne (b : α) (l : List α) : b ∈ l.destutter (· ≠ ·) ↔ b ∈ l := by
  cases l with
  | nil => simp
  | cons a l => rw [List.destutter_cons', mem_destutter'_ne, List.mem_cons]

theorem mem_sortUnique {values : List α} {a : α} : a ∈ sortUnique values ↔ a ∈ values := by
  unfold sortUnique
  rw [mem_destutter_ne, List.mem_insertionSort]

theorem sortUnique_sorted (values : List α) : (sortUnique values).Pairwise (· < ·) := by
  unfold sortUnique
  have h1 : ((values.insertionSort (· ≤ ·)).destutter (· ≠ ·)).Pairwise (· ≤ ·) :=
    (List.pairwise_insertionSort (· ≤ ·) values).sublist (List.destutter_sublist _ _)
  have h2 := List.isChain_destutter (· ≠ ·) (values.insertionSort (· ≤ ·))
  have h3 : List.IsChain (· < ·) ((values.insertionSort (· ≤ ·)).destutter (· ≠ ·)) := by
    generalize (values.insertionSort (· ≤ ·)).destutter (· ≠ ·) = l at h1 h2
    induction l with
    | nil => exact List.IsChain.nil
    | cons a l ih =>
      rw [List.isChain_cons] at h2 ⊢
      rw [List.pairwise_cons] at h1
      exact ⟨fun y hy => lt_of_le_of_ne (h1.1 y (List.mem_of_mem_head? hy)) (h2.1 y hy),
        ih h1.2 h2.2⟩
  exact List.isChain_iff_pairwise.mp h3

end sortUnique

/-! ## Removing the eliminated channel -/

theorem eraseIdx_findIdx {α β : Type*} (p : α → Bool) (f : α → β) (l : List α)
    (h : l.countP p ≤ 1) : (l.map f).eraseIdx (l.findIdx p) = (l.filter (fun a => ¬ p a)).map f := by
  induction l with
  | nil => rfl
  | cons a l ih =>
    rw [List.findIdx_cons]
    cases hp : p a with
    | true =>
      rw [List.countP_cons, hp] at h
      have h0 : l.countP p = 0 := by simp at h ⊢; exact h
      have : l.filter (fun a => ¬ p a) = l := by
        rw [List.filter_eq_self]
        intro b hb
        simpa using (List.countP_eq_zero.mp h0) b hb
      rw [List.filter_cons_of_neg (by simp [hp]), this]
      rfl
    | false =>
      rw [List.countP_cons, hp] at h
      have := ih (by simpa using h)
      simp [hp, this]

theorem filter_not_eq_self {α : Type*} (p : α → Bool) (l : List α) (h : l.countP p = 0) :
    l.filter (fun a => ¬ p a) = l := by
  rw [List.filter_eq_self]
  intro b hb
  simpa using (List.countP_eq_zero.mp h) b hb

/-- The channels that remain. -/
def ChannelData.kept (channels : List ChannelData) : List ChannelData :=
  channels.filter fun d => ¬ d.eliminated

theorem makeChannels_eq {channels : List ChannelData}
    (h : channels.countP ChannelData.eliminated ≤ 1) :
    makeChannels channels = (ChannelData.kept channels).map ChannelData.channel := by
  unfold makeChannels ChannelData.kept indexEliminated
  split
  · exact eraseIdx_findIdx _ _ _ h
  · rename_i h1
    rw [not_not, List.findIdx_eq_length] at h1
    rw [filter_not_eq_self]
    exact List.countP_eq_zero.mpr (by simpa using h1)

/-! ## The map of widths -/

/-- Value stored for an energy and a channel, zero if there is none. -/
noncomputable def WidthMap.value (m : WidthMap) (energy : ℝ) (c : ℕ) : ℝ :=
  match m.find? (fun e => e.1 = energy) with
  | some e => e.2.getD c 0
  | none => 0

structure WidthMap.Good (n : ℕ) (m : WidthMap) : Prop where
  sorted : (m.map Prod.fst).Pairwise (· < ·)
  rows : ∀ e ∈ m, e.2.length = n

theorem addWidth_keys {n i : ℕ} {energy w : ℝ} (m : WidthMap) (x : ℝ) :
    x ∈ (addWidth n i energy w m).map Prod.fst ↔ x = energy ∨ x ∈ m.map Prod.fst := by
  induction m with
  | nil => simp [addWidth]
  | cons e m ih =>
    unfold addWidth
    split
    · simp
    · split
      · rw [List.map_cons, List.mem_cons, ih, List.map_cons, List.mem_cons]
        tauto
      · rename_i h1 h2
        have : energy = e.1 := le_antisymm (not_lt.mp h2) (not_lt.mp h1)
        subst this
        simp

theorem addWidth_good {n i : ℕ} {energy w : ℝ} {m : WidthMap} (h : m.Good n) :
    (addWidth n i energy w m).Good n := by
  induction m with
  | nil => exact ⟨by simp [addWidth], by simp [addWidth]⟩
  | cons e m ih =>
    obtain ⟨hs, hr⟩ := h
    rw [List.map_cons, List.pairwise_cons] at hs
    have ih' := ih ⟨hs.2, fun x hx => hr x (List.mem_cons_of_mem _ hx)⟩
    unfold addWidth
    split
    · rename_i h1
      refine ⟨?_, ?_⟩
      · rw [List.map_cons, List.map_cons, List.pairwise_cons, List.pairwise_cons]
        refine ⟨?_, hs⟩
        intro x hx
        rcases List.mem_cons.mp hx with rfl | hx
        · exact h1
        · exact lt_trans h1 (hs.1 x hx)
      · intro x hx
        rcases List.mem_cons.mp hx with rfl | hx
        · simp
        · exact hr x hx
    · rename_i h1
      split
      · rename_i h2
        refine ⟨?_, ?_⟩
        · rw [List.map_cons, List.pairwise_cons]
          refine ⟨?_, ih'.sorted⟩
          intro x hx
          rw [addWidth_keys] at hx
          rcases hx with rfl | hx
          · exact h2
          · exact hs.1 x hx
        · intro x hx
          rcases List.mem_cons.mp hx with rfl | hx
          · exact hr _ List.mem_cons_self
          · exact ih'.rows x hx
      · refine ⟨?_, ?_⟩
        · rw [List.map_cons, List.pairwise_cons]
          exact hs
        · intro x hx
          rcases List.mem_cons.mp hx with rfl | hx
          · rw [List.length_set]
            exact hr e List.mem_cons_self
          · exact hr x (List.mem_cons_of_mem _ hx)

theorem getD_set {n i c : ℕ} {l : List ℝ} {w : ℝ} (hl : l.length = n) (hi : i < n) :
    (l.set i w).getD c 0 = if c = i then w else l.getD c 0 := by
  simp only [List.getD_eq_getElem?_getD, List.getElem?_set]
  by_cases h : i = c
  · subst h
    rw [if_pos rfl, if_pos rfl, if_pos (hl ▸ hi)]
    rfl
  · rw [if_neg h, if_neg (Ne.symm h)]

theorem addWidth_value {n i : ℕ} {energy w : ℝ} {m : WidthMap} (h : m.Good n) (hi : i < n) (x : ℝ)
    (c : ℕ) : (addWidth n i energy w m).value x c
      = if x = energy ∧ c = i then w else m.value x c := by
  have hrep : ∀ c, ((List.replicate n (0 : ℝ)).set i w).getD c 0 = if c = i then w else 0 := by
    intro c
    rw [getD_set List.length_replicate hi]
    have : (List.replicate n (0 : ℝ)).getD c 0 = 0 := by
      rw [List.getD_eq_getElem?_getD, List.getElem?_replicate]
      split <;> rfl
    rw [this]
  induction m with
  | nil =>
    unfold addWidth WidthMap.value
    by_cases hx : energy = x
    · subst hx
      rw [List.find?_cons_of_pos (by simp)]
      simp only [hrep]
      simp
    · have : x ≠ energy := Ne.symm hx
      simp [hx, this]
  | cons e m ih =>
    obtain ⟨hs, hr⟩ := h
    rw [List.map_cons, List.pairwise_cons] at hs
    have ih' := ih ⟨hs.2, fun x hx => hr x (List.mem_cons_of_mem _ hx)⟩
    unfold addWidth
    split
    · rename_i h1
      by_cases hx : energy = x
      · subst hx
        have hn : WidthMap.value (e :: m) energy c = 0 := by
          unfold WidthMap.value
          rw [List.find?_eq_none.mpr]
          intro y hy
          simp only [decide_eq_true_eq]
          rcases List.mem_cons.mp hy with rfl | hy
          · exact h1.ne'
          · exact (lt_trans h1 (hs.1 _ (List.mem_map_of_mem hy))).ne'
        rw [hn]
        unfold WidthMap.value
        rw [List.find?_cons_of_pos (by simp)]
        simp only [hrep]
        simp
      · have hne : x ≠ energy := Ne.symm hx
        unfold WidthMap.value
        rw [List.find?_cons_of_neg (by simpa using hx)]
        simp [hne]
    · rename_i h1
      split
      · rename_i h2
        by_cases hx : e.1 = x
        · have hne : x ≠ energy := by
            rintro rfl
            exact absurd hx h2.ne
          unfold WidthMap.value
          rw [List.find?_cons_of_pos (by simpa using hx), List.find?_cons_of_pos (by simpa using hx)]
          simp [hne]
        · have e1 : ∀ m' : WidthMap, WidthMap.value (e :: m') x c = WidthMap.value m' x c := by
            intro m'
            unfold WidthMap.value
            rw [List.find?_cons_of_neg (by simpa using hx)]
          rw [e1, e1, ih']
      · rename_i h2
        have heq : energy = e.1 := le_antisymm (not_lt.mp h2) (not_lt.mp h1)
        by_cases hx : e.1 = x
        · unfold WidthMap.value
          rw [List.find?_cons_of_pos (by simpa using hx), List.find?_cons_of_pos (by simpa using hx)]
          simp only
          rw [getD_set (hr e List.mem_cons_self) hi]
          simp [← hx, heq]
        · have e1 : ∀ (l : List ℝ) (m' : WidthMap),
              WidthMap.value ((e.1, l) :: m') x c = WidthMap.value m' x c := by
            intro l m'
            unfold WidthMap.value
            rw [List.find?_cons_of_neg (by simpa using hx)]
          have hne : x ≠ energy := by rw [heq]; exact Ne.symm hx
          rw [e1, show e :: m = (e.1, e.2) :: m from rfl, e1]
          simp [hne]

end Verif

namespace Verif.Spec

/-- The width that a channel's data list for an energy: the last one, zero if there is none. -/
noncomputable def lastWidth (d : ChannelData) (energy : ℝ) : ℝ :=
  (((d.energies.zip d.widths).reverse.find? fun p => p.1 = energy).map Prod.snd).getD 0

end Verif.Spec

namespace Verif

theorem foldl_addWidth {n i : ℕ} (hi : i < n) (l : List (ℝ × ℝ)) (m : WidthMap) (h : m.Good n) :
    (l.foldl (fun m p => addWidth n i p.1 p.2 m) m).Good n ∧
    (∀ x, x ∈ (l.foldl (fun m p => addWidth n i p.1 p.2 m) m).map Prod.fst ↔
      x ∈ l.map Prod.fst ∨ x ∈ m.map Prod.fst) ∧
    ∀ x c, (l.foldl (fun m p => addWidth n i p.1 p.2 m) m).value x c
      = if c = i then ((l.reverse.find? fun p => p.1 = x).map Prod.snd).getD (m.value x c)
        else m.value x c := by
  induction l generalizing m with
  | nil => refine ⟨h, fun x => by simp, fun x c => by simp⟩
  | cons p l ih =>
    rw [List.foldl_cons]
    obtain ⟨h1, h2, h3⟩ := ih (addWidth n i p.1 p.2 m) (addWidth_good h)
    refine ⟨h1, fun x => ?_, fun x c => ?_⟩
    · rw [h2, addWidth_keys, List.map_cons, List.mem_cons]
      tauto
    · rw [h3, addWidth_value h hi]
      by_cases hc : c = i
      · rw [if_pos hc, if_pos hc, List.reverse_cons, List.find?_append]
        cases hf : l.reverse.find? (fun p => p.1 = x) with
        | some q => rfl
        | none =>
          by_cases hp : p.1 = x
          · simp [hp, hc]
          · have : x ≠ p.1 := Ne.symm hp
            simp [hp, this]
      · rw [if_neg hc, if_neg hc, if_neg (fun h => hc h.2)]

theorem widthMap_aux (n : ℕ) (l : List ChannelData) (k : ℕ) (hk : k + l.length ≤ n) (m : WidthMap)
    (h : m.Good n) (hm : ∀ x c, k ≤ c → m.value x c = 0) :
    ((l.zipIdx k).foldl (fun m p => addWidthsToMap n p.2 p.1 m) m).Good n ∧
    (∀ x, x ∈ ((l.zipIdx k).foldl (fun m p => addWidthsToMap n p.2 p.1 m) m).map Prod.fst ↔
      (∃ d ∈ l, x ∈ (d.energies.zip d.widths).map Prod.fst) ∨ x ∈ m.map Prod.fst) ∧
    (∀ x c, c < k → ((l.zipIdx k).foldl (fun m p => addWidthsToMap n p.2 p.1 m) m).value x c
      = m.value x c) ∧
    ∀ x c, ∀ d, l[c]? = some d →
      ((l.zipIdx k).foldl (fun m p => addWidthsToMap n p.2 p.1 m) m).value x (k + c)
        = Spec.lastWidth d x := by
  induction l generalizing k m with
  | nil => exact ⟨h, fun x => by simp, fun x c _ => rfl, fun x c d hd => by simp at hd⟩
  | cons d l ih =>
    rw [List.zipIdx_cons, List.foldl_cons]
    rw [List.length_cons] at hk
    have hk' : k < n := by omega
    obtain ⟨g1, g2, g3⟩ := foldl_addWidth hk' (d.energies.zip d.widths) m h
    change (addWidthsToMap n k d m).Good n at g1
    change ∀ x, x ∈ (addWidthsToMap n k d m).map Prod.fst ↔ _ at g2
    change ∀ x c, (addWidthsToMap n k d m).value x c = _ at g3
    have hm' : ∀ x c, k + 1 ≤ c → (addWidthsToMap n k d m).value x c = 0 := by
      intro x c hc
      rw [g3, if_neg (by omega)]
      exact hm x c (by omega)
    obtain ⟨i1, i2, i3, i4⟩ := ih (k + 1) (by omega) _ g1 hm'
    refine ⟨i1, fun x => ?_, fun x c hc => ?_, fun x c e he => ?_⟩
    · rw [i2, g2, List.exists_mem_cons_iff, ← or_assoc, or_comm (a := ∃ d ∈ l, _)]
    · rw [i3 x c (by omega), g3, if_neg (by omega)]
    · cases c with
      | zero =>
        simp only [List.getElem?_cons_zero, Option.some.injEq] at he
        subst he
        rw [add_zero, i3 x k (by omega), g3, if_pos rfl, hm x k (le_refl _)]
        rfl
      | succ c =>
        rw [List.getElem?_cons_succ] at he
        rw [show k + (c + 1) = k + 1 + c by omega]
        exact i4 x c e he

/-- The map built from the data of all channels. -/
theorem widthMap_spec (channels : List ChannelData) :
    ((widthMap channels).map Prod.fst).Pairwise (· < ·) ∧
    (∀ x, x ∈ (widthMap channels).map Prod.fst ↔
      ∃ d ∈ channels, x ∈ (d.energies.zip d.widths).map Prod.fst) ∧
    ∀ e ∈ widthMap channels, e.2 = channels.map fun d => Spec.lastWidth d e.1 := by
  obtain ⟨h1, h2, -, h4⟩ := widthMap_aux channels.length channels 0 (by omega) []
    ⟨by simp, by simp⟩ (fun x c _ => rfl)
  change (widthMap channels).Good channels.length at h1
  change ∀ x, x ∈ (widthMap channels).map Prod.fst ↔ _ at h2
  change ∀ x c d, _ → (widthMap channels).value x (0 + c) = _ at h4
  refine ⟨h1.sorted, fun x => by rw [h2]; simp, fun e he => ?_⟩
  have hval : ∀ c, (widthMap channels).value e.1 c = e.2.getD c 0 := by
    intro c
    have hf : (widthMap channels).find? (fun y => y.1 = e.1) = some e := by
      have hs := h1.sorted
      generalize widthMap channels = m at he hs
      induction m with
      | nil => cases he
      | cons a m ih =>
        rw [List.map_cons, List.pairwise_cons] at hs
        rcases List.mem_cons.mp he with rfl | he
        · rw [List.find?_cons_of_pos (by simp)]
        · rw [List.find?_cons_of_neg, ih he hs.2]
          have := hs.1 _ (List.mem_map_of_mem (f := Prod.fst) he)
          simpa using this.ne
    unfold WidthMap.value
    rw [hf]
  apply List.ext_getElem
  · rw [h1.rows e he, List.length_map]
  · intro c hc hc'
    rw [List.length_map] at hc'
    have := h4 e.1 c channels[c] (List.getElem?_eq_getElem hc')
    rw [zero_add, hval, List.getD_eq_getElem?_getD, List.getElem?_eq_getElem hc,
      Option.getD_some] at this
    rw [this, List.getElem_map]

/-! ## Monadic maps -/

theorem mapM_ok {α β : Type*} {f : α → Outcome β} {l : List α} {r : List β} :
    l.mapM f = .ok r ↔ List.Forall₂ (fun a b => f a = .ok b) l r := by
  induction l generalizing r with
  | nil =>
    simp only [List.mapM_nil, pure, Except.pure, Except.ok.injEq]
    constructor
    · rintro rfl; exact .nil
    · intro h; cases h; rfl
  | cons a l ih =>
    rw [List.mapM_cons]
    cases h : f a with
    | error e =>
      simp only [bind, Except.bind]
      constructor
      · intro h; cases h
      · intro h'
        cases h' with
        | cons h1 _ => rw [h] at h1; cases h1
    | ok b =>
      simp only [bind, Except.bind]
      cases h2 : l.mapM f with
      | error e =>
        simp only [h2] at ih ⊢
        constructor
        · intro h; cases h
        · intro h'
          cases h' with
          | cons _ h3 => exact absurd (ih.mpr h3) (by simp)
      | ok bs =>
        simp only [h2] at ih ⊢
        simp only [pure, Except.pure, Except.ok.injEq]
        constructor
        · rintro rfl
          exact .cons h (ih.mp rfl)
        · intro h'
          cases h' with
          | cons h1 h3 =>
            have e1 := ih.mpr h3
            simp only [Except.ok.injEq] at e1
            rw [h] at h1
            simp only [Except.ok.injEq] at h1
            rw [h1, e1]

theorem mapM_exists {α β : Type*} {f : α → Outcome β} {l : List α} :
    (∃ r, l.mapM f = .ok r) ↔ ∀ a ∈ l, ∃ b, f a = .ok b := by
  constructor
  · rintro ⟨r, h⟩ a ha
    rw [mapM_ok] at h
    induction h with
    | nil => cases ha
    | cons h1 _ ih =>
      rcases List.mem_cons.mp ha with rfl | ha
      · exact ⟨_, h1⟩
      · exact ih ha
  · intro h
    induction l with
    | nil => exact ⟨[], rfl⟩
    | cons a l ih =>
      obtain ⟨b, hb⟩ := h a List.mem_cons_self
      obtain ⟨bs, hbs⟩ := ih fun a ha => h a (List.mem_cons_of_mem _ ha)
      exact ⟨b :: bs, mapM_ok.mpr (.cons hb (mapM_ok.mp hbs))⟩

theorem makeTable_eq {channels : List Str} {resonances : List Resonance} {table : ResonanceTable}
    (h : makeTable channels resonances = .ok table) : table = ⟨channels, resonances⟩ := by
  unfold makeTable at h
  split at h
  · exact (Except.ok.inj h).symm
  · cases h

theorem getD_findIdx {α : Type*} (p : α → Bool) (f : α → ℝ) (l : List α) :
    (l.map f).getD (l.findIdx p) 0 = ((l.find? p).map f).getD 0 := by
  induction l with
  | nil => rfl
  | cons a l ih =>
    rw [List.findIdx_cons]
    cases hp : p a with
    | true => simp [hp]
    | false =>
      rw [List.find?_cons_of_neg (by simp [hp])]
      simpa using ih

theorem lastWidth_of_nodup {d : ChannelData} (hn : d.energies.Nodup) {p : ℝ × ℝ}
    (hp : p ∈ d.energies.zip d.widths) : Spec.lastWidth d p.1 = p.2 := by
  unfold Spec.lastWidth
  have hz : ((d.energies.zip d.widths).map Prod.fst).Nodup := by
    refine hn.sublist ?_
    generalize d.energies = es
    generalize d.widths = ws
    induction es generalizing ws with
    | nil => simp
    | cons e es ih =>
      cases ws with
      | nil => simp
      | cons w ws => simpa using ih ws
  generalize d.energies.zip d.widths = l at hp hz
  have hf : l.reverse.find? (fun q => q.1 = p.1) = some p := by
    have h1 : (l.reverse.find? (fun q => q.1 = p.1)).isSome := by
      rw [List.find?_isSome]
      exact ⟨p, List.mem_reverse.mpr hp, by simp⟩
    obtain ⟨q, hq⟩ := Option.isSome_iff_exists.mp h1
    have hq1 : q.1 = p.1 := by simpa using List.find?_some hq
    have hq2 : q ∈ l := List.mem_reverse.mp (List.mem_of_find?_eq_some hq)
    rw [hq, List.inj_on_of_nodup_map hz hq2 hp hq1]
  rw [hf]
  rfl

theorem mergeEliminated_ok {l : List ChannelData} (hl : l ≠ [])
    (hlen : ∀ d ∈ l, d.energies.length = d.widths.length) (helim : ∀ d ∈ l, d.eliminated = true) :
    ∃ d rest, l = d :: rest ∧ mergeEliminated l = .ok ⟨d.channel, l.flatMap ChannelData.energies,
      l.flatMap ChannelData.widths, true⟩ := by
  match l, hl with
  | [d], _ =>
    refine ⟨d, [], rfl, ?_⟩
    have := helim d List.mem_cons_self
    obtain ⟨c, e, w, b⟩ := d
    simp only at this
    subst this
    simp [mergeEliminated]
  | d :: x :: rest, _ =>
    refine ⟨d, x :: rest, rfl, ?_⟩
    change makeChannelData _ _ _ _ = _
    unfold makeChannelData
    rw [if_neg]
    rw [not_not, List.length_flatMap, List.length_flatMap]
    congr 1
    exact List.map_congr_left fun a ha => hlen a ha

end Verif
