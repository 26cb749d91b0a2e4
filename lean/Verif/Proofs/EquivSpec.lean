import Verif.Proofs.MapKeysRun

/-! # From ranks back to keys -/

namespace Bpt
open Spec
variable {K O V A : Type} [LinearOrder O] {rank : K → O}

theorem lookup_item (q : O) (l : List (K × V)) :
    lookup q (l.map (item rank)) = lookupBy rank q l := by
  unfold lookup lookupBy
  rw [List.find?_map, Option.map_map]
  rfl

theorem erase_item (q : O) (l : List (K × V)) :
    erase q (l.map (item rank)) = (eraseBy rank q l).map (item rank) := by
  unfold erase eraseBy
  rw [List.filter_map]
  rfl

theorem modify_item (q : O) (g : V → V) (l : List (K × V)) :
    Spec.modify q g (l.map (item rank)) = (modifyBy rank q g l).map (item rank) := by
  unfold Spec.modify modifyBy
  rw [List.map_map, List.map_map]
  refine List.map_congr_left fun e _ => ?_
  by_cases hq : rank e.1 = q <;> simp [item, hq]

theorem item_inj {l : List (K × V)} (h : Sorted (l.map (item rank))) {x y : K × V} (hx : x ∈ l)
    (hy : y ∈ l) (e : rank x.1 = rank y.1) : x = y := by
  unfold Sorted at h
  rw [List.pairwise_map] at h
  by_contra hne
  rcases List.Pairwise.forall_of_forall_of_flip
    (R := fun a b : K × V => a ≠ b → rank a.1 ≠ rank b.1) (l := l) (fun a _ h => absurd rfl h)
    (h.imp (S := fun a b : K × V => a ≠ b → rank a.1 ≠ rank b.1) fun h _ => ne_of_lt h)
    (h.imp (S := flip fun a b : K × V => a ≠ b → rank a.1 ≠ rank b.1) fun h _ => ne_of_gt h)
    hx hy hne with h
  exact h e

theorem map_item_inj {X Y : List (K × V)}
    (h : ∀ x ∈ X, ∀ y ∈ Y, item rank x = item rank y → x = y)
    (e : X.map (item rank) = Y.map (item rank)) : X = Y := by
  induction X generalizing Y with
  | nil => cases Y with
    | nil => rfl
    | cons => simp at e
  | cons x X ih =>
    cases Y with
    | nil => simp at e
    | cons y Y =>
      rw [List.map_cons, List.map_cons, List.cons.injEq] at e
      rw [h x (by simp) y (by simp) e.1, ih (fun x hx y hy => h x (by simp [hx]) y (by simp [hy])) e.2]

theorem fst_item_inj {X Y : List (K × V)} (h : X.map (·.1) = Y.map (·.1))
    (e : X.map (item rank) = Y.map (item rank)) : X = Y := by
  induction X generalizing Y with
  | nil => cases Y with
    | nil => rfl
    | cons => simp at e
  | cons x X ih =>
    cases Y with
    | nil => simp at e
    | cons y Y =>
      rw [List.map_cons, List.map_cons, List.cons.injEq] at e h
      have e1 : (item rank x).2 = (item rank y).2 := congrArg Prod.snd e.1
      rw [ih h.2 e.2, Prod.ext h.1 e1]

theorem insertBy_lt {k : K} {v : V} (a : List (K × V)) {b : List (K × V)}
    (h : ∀ e ∈ a, rank e.1 < rank k) :
    insertBy rank k v (a ++ b) = a ++ insertBy rank k v b := by
  induction a with
  | nil => rfl
  | cons x a ih =>
    rw [List.cons_append, insertBy, if_pos (h x (by simp)), ih fun e he => h e (by simp [he])]
    rfl

theorem insertBy_gt {k : K} {v : V} {b : List (K × V)} (h : ∀ e ∈ b, rank k < rank e.1) :
    insertBy rank k v b = (k, v) :: b := by
  cases b with
  | nil => rfl
  | cons x b =>
    have := h x (by simp)
    rw [insertBy, if_neg this.not_gt, if_neg (ne_of_gt this)]

theorem insertBy_eq {k k0 : K} {v v0 : V} {b : List (K × V)} (h : rank k0 = rank k) :
    insertBy rank k v ((k0, v0) :: b) = (k0, v) :: b := by
  rw [insertBy, if_neg (by rw [h]; exact lt_irrefl _), if_pos h]

theorem sorted_split {a b : List (K × V)} {x : K × V} (h : Sorted ((a ++ x :: b).map (item rank))) :
    (∀ e ∈ a, rank e.1 < rank x.1) ∧ (∀ e ∈ b, rank x.1 < rank e.1) := by
  unfold Sorted at h
  rw [List.pairwise_map, List.pairwise_append] at h
  exact ⟨fun e he => h.2.2 e he x (by simp), (List.pairwise_cons.1 h.2.1).1⟩

/-- What happens to the items is determined by the effect on the items and on the ranks. -/
theorem effect_callBy {c : QCall K O V} {a : Answer K V} {l l' : List (K × V)}
    (h : Effect c.lawless a l l') (s : Sorted (l.map (item rank)))
    (s' : Sorted (l'.map (item rank)))
    (ha : a.mapK rank = (Spec.call (l.map (item rank)) (c.shadow rank)).1)
    (hl : l'.map (item rank) = (Spec.call (l.map (item rank)) (c.shadow rank)).2) :
    (a, l') = Spec.callBy rank l c := by
  cases c with
  | insert k v =>
    simp only [QCall.shadow, Spec.call, lookup_item] at ha hl
    simp only [QCall.lawless] at h
    cases h with
    | inserted =>
      rename_i a b
      simp only [Answer.mapK, Answer.value.injEq] at ha
      obtain ⟨h1, h2⟩ := sorted_split s'
      rw [Spec.callBy, ← ha, insertBy_lt a h1, insertBy_gt h2]
    | updated =>
      rename_i a k0 v0 b
      simp only [Answer.mapK, Answer.value.injEq] at ha
      rw [Spec.callBy, ← ha]
      congr 1
      -- the item found
      have hf := ha.symm
      unfold lookupBy at hf
      rw [Option.map_eq_some_iff] at hf
      obtain ⟨⟨k1, v1⟩, hf, e⟩ := hf
      cases e
      have hk : rank k1 = rank k := by simpa using List.find?_some hf
      obtain ⟨p, q, e⟩ := List.append_of_mem (List.mem_of_find?_eq_some hf)
      obtain ⟨h1, h2⟩ := sorted_split (e ▸ s)
      dsimp only at hk h1 h2
      have hins : insertBy rank k v (a ++ (k0, v1) :: b) = p ++ (k1, v) :: q := by
        rw [e, insertBy_lt p (hk ▸ h1), insertBy_eq hk]
      rw [hins]
      refine fst_item_inj (rank := rank) ?_ ?_
      · have := congrArg (List.map Prod.fst) e
        simpa using this
      · rw [hl, e]
        unfold upsert
        have f1 : ∀ x ∈ p.map (item rank), x.1 < rank k := by
          intro x hx
          obtain ⟨y, hy, rfl⟩ := List.mem_map.1 hx
          exact hk ▸ h1 y hy
        have f2 : ∀ x ∈ q.map (item rank), rank k < x.1 := by
          intro x hx
          obtain ⟨y, hy, rfl⟩ := List.mem_map.1 hx
          exact hk ▸ h2 y hy
        have g1 : (p.map (item rank)).filter (fun e => decide (e.1 < rank k)) = p.map (item rank) :=
          List.filter_eq_self.2 fun x hx => decide_eq_true (f1 x hx)
        have g2 : (q.map (item rank)).filter (fun e => decide (e.1 < rank k)) = [] :=
          List.filter_eq_nil_iff.2 fun x hx => by simpa using (f2 x hx).le
        have g3 : (p.map (item rank)).filter (fun e => decide (rank k < e.1)) = [] :=
          List.filter_eq_nil_iff.2 fun x hx => by simpa using (f1 x hx).le
        have g4 : (q.map (item rank)).filter (fun e => decide (rank k < e.1)) = q.map (item rank) :=
          List.filter_eq_self.2 fun x hx => decide_eq_true (f2 x hx)
        rw [List.map_append, List.map_cons, List.filter_append, List.filter_append,
          List.filter_cons_of_neg (by simp [item, hk]), List.filter_cons_of_neg (by simp [item, hk]),
          g1, g2, g3, g4]
        simp [item, hk]
  | remove q =>
    simp only [QCall.shadow, Spec.call, lookup_item, erase_item] at ha hl
    simp only [QCall.lawless] at h
    have sub : l' = eraseBy rank q l := by
      refine map_item_inj (rank := rank) ?_ hl
      intro x hx y hy e
      refine item_inj s ?_ (List.mem_of_mem_filter hy) (congrArg Prod.fst e)
      cases h with
      | removed =>
        rcases List.mem_append.1 hx with h | h
        · exact List.mem_append_left _ h
        · exact List.mem_append_right _ (List.mem_cons_of_mem _ h)
      | notRemoved => exact hx
    rw [Spec.callBy, ← sub]
    cases h <;> simp only [Answer.mapK, Answer.value.injEq] at ha <;> rw [← ha]
  | get q =>
    simp only [QCall.shadow, Spec.call, lookup_item] at ha
    simp only [QCall.lawless] at h
    cases h <;> simp only [Answer.mapK, Answer.value.injEq] at ha <;> rw [Spec.callBy, ← ha]
  | getMut q g =>
    simp only [QCall.shadow, Spec.call, lookup_item, modify_item] at ha hl
    simp only [QCall.lawless] at h
    have keys : (modifyBy rank q g l).map (·.1) = l.map (·.1) := by
      unfold modifyBy
      rw [List.map_map]
      refine List.map_congr_left fun e _ => ?_
      simp only [Function.comp_apply]
      split <;> rfl
    have sub : l' = modifyBy rank q g l := by
      refine fst_item_inj (rank := rank) ?_ hl
      rw [keys]
      cases h <;> simp
    rw [Spec.callBy, ← sub]
    cases h <;> simp only [Answer.mapK, Answer.value.injEq] at ha <;> rw [← ha]
  | first => simp only [QCall.lawless] at h; cases h; rfl
  | last => simp only [QCall.lawless] at h; cases h; rfl
  | len => simp only [QCall.lawless] at h; cases h; rfl
  | isEmpty => simp only [QCall.lawless] at h; cases h; rfl
  | iter n => simp only [QCall.lawless] at h; cases h; rfl
  | iterBack n => simp only [QCall.lawless] at h; cases h; rfl
  | cursorNext c =>
    simp only [QCall.shadow, Spec.call, Spec.succ, List.filter_map, List.head?_map] at ha
    simp only [QCall.lawless] at h
    change a.mapK rank = .entry (((l.filter (fun e => decide (rank c.k < rank e.1))).head?).map
      (item rank)) at ha
    rw [Spec.callBy]
    cases h with
    | next he =>
      simp only [Answer.mapK, Option.map_some, Answer.entry.injEq] at ha
      obtain ⟨x, hx, e⟩ := Option.map_eq_some_iff.1 ha.symm
      rw [hx, item_inj s (List.mem_of_mem_filter (List.mem_of_mem_head? hx)) he
        (congrArg Prod.fst e)]
    | noNext =>
      simp only [Answer.mapK, Option.map_none, Answer.entry.injEq] at ha
      rw [Option.map_eq_none_iff.1 ha.symm]
  | cursorPrev c =>
    simp only [QCall.shadow, Spec.call, Spec.pred, List.filter_map, List.getLast?_map] at ha
    simp only [QCall.lawless] at h
    change a.mapK rank = .entry (((l.filter (fun e => decide (rank e.1 < rank c.k))).getLast?).map
      (item rank)) at ha
    rw [Spec.callBy]
    cases h with
    | prev he =>
      simp only [Answer.mapK, Option.map_some, Answer.entry.injEq] at ha
      obtain ⟨x, hx, e⟩ := Option.map_eq_some_iff.1 ha.symm
      rw [hx, item_inj s (List.mem_of_mem_filter (List.mem_of_mem_getLast? hx)) he
        (congrArg Prod.fst e)]
    | noPrev =>
      simp only [Answer.mapK, Option.map_none, Answer.entry.injEq] at ha
      rw [Option.map_eq_none_iff.1 ha.symm]
  | cursorValue c =>
    simp only [QCall.shadow, Spec.call, lookup_item] at ha
    simp only [QCall.lawless] at h
    rw [Spec.callBy]
    change a.mapK rank = .value (lookupBy rank (rank c.k) l) at ha
    cases h <;> simp only [Answer.mapK, Answer.value.injEq] at ha <;> rw [← ha]
  | getCursor k =>
    simp only [QCall.shadow, Spec.call, lookup_item] at ha
    simp only [QCall.lawless] at h
    cases h <;> simp only [Answer.mapK, Answer.keyValue.injEq] at ha <;> rw [Spec.callBy, ← ha.2]
  | clear => simp only [QCall.lawless] at h; cases h; rfl

variable [Augmentation K V A]

theorem QInvM.step {t : Tree K V A} {l : List (K × V)} (h : QInv rank t l)
    (hl : t.len + 1 < 2 ^ 64) (e : Bool) (c : QCall K O V) :
    ∃ t', t.ucall (c.answers rank e) c.lawless = .ok ((Spec.callBy rank l c).1, t') ∧
      QInv rank t' (Spec.callBy rank l c).2 ∧
      (Spec.callBy rank l c).2.length ≤ l.length + 1 := by
  obtain ⟨a, t', l', h1, h2, h3, h4, h5⟩ := h.ucall hl e c
  have := effect_callBy h3 h.ranks.sorted h2.ranks.sorted h4 h5
  rw [← this]
  exact ⟨t', h1, h2, h3.length_le⟩

theorem QInvM.run {t : Tree K V A} {l : List (K × V)} (h : QInv rank t l) (e : Bool)
    (cs : List (QCall K O V)) (hl : t.len + cs.length < 2 ^ 64) :
    ∃ t', t.runBy rank e cs = .ok ((Spec.runBy rank l cs).1, t') ∧
      QInv rank t' (Spec.runBy rank l cs).2 := by
  induction cs generalizing t l with
  | nil => exact ⟨t, rfl, h⟩
  | cons c cs ih =>
    rw [List.length_cons] at hl
    obtain ⟨t1, h1, h2, h3⟩ := h.step (by omega) e c
    obtain ⟨t2, h4, h5⟩ := ih h2 (by rw [h2.items.len]; rw [h.items.len] at hl; omega)
    refine ⟨t2, ?_, h5⟩
    rw [Tree.runBy] at h4 ⊢
    simp only [List.map_cons, Tree.urun, h1, ok_bind, h4, pure_ok, Spec.runBy]

end Bpt
