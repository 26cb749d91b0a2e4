import Verif.Proofs.Aftermath
import Verif.Proofs.DropRemove

/-!
# Iterators in a map left behind by a panic
-/

namespace Bpt
variable {K V A : Type}

/-- What iterators use about the leaves of a map: none is empty, and neighbours exist. -/
structure Walk (P : K × V → Prop) (t : Tree K V A) : Prop where
  item : ∀ (i : Nat) (l : Leaf K V), t.store.leaves[i]? = some (some l) → l.data ≠ [] ∧ ∀ x ∈ l.data, P x
  next : ∀ (i : Nat) (l : Leaf K V) j, t.store.leaves[i]? = some (some l) → l.next = some j → ∃ l', t.store.leaves[j]? = some (some l')
  prev : ∀ (i : Nat) (l : Leaf K V) j, t.store.leaves[i]? = some (some l) → l.prev = some j → ∃ l', t.store.leaves[j]? = some (some l')
  first : ∃ i l, t.firstLeaf = .ok i ∧ t.store.leaves[i]? = some (some l)
  last : ∃ i l, t.lastLeaf = .ok i ∧ t.store.leaves[i]? = some (some l)

theorem Holding.ends {P : K × V → Prop} {n : Nat} {t : Tree K V A} (h : Holding P n t) :
    (∃ i l, t.firstLeaf = .ok i ∧ t.store.leaves[i]? = some (some l)) ∧
    ∃ i l, t.lastLeaf = .ok i ∧ t.store.leaves[i]? = some (some l) := by
  obtain ⟨H, L, hd, hf, -⟩ := h
  obtain ⟨i, l, h1, h2⟩ := hd.first _ hf
  obtain ⟨j, l', h3, h4⟩ := hd.last _ hf
  refine ⟨⟨i, l, ?_, h1⟩, j, l', ?_, h3⟩
  · unfold Tree.firstLeaf descendLeaf
    rw [h2]; rfl
  · unfold Tree.lastLeaf descendLeaf
    rw [h4]; rfl

theorem Holding.walk {P : K × V → Prop} {n : Nat} {t : Tree K V A} (h : Holding P n t) (hn : n ≠ 0) :
    Walk P t := by
  obtain ⟨e1, e2⟩ := h.ends
  obtain ⟨H, L, hd, hf, hF, hP, hl⟩ := h
  have key : ∀ (i : Nat) (l : Leaf K V), t.store.leaves[i]? = some (some l) →
      ∃ LA x LB, L = LA ++ x :: LB ∧ l = ⟨x.2, lstId none LA, hdId LB none⟩ := by
    intro i l hi
    obtain ⟨x, hx, rfl⟩ := List.mem_map.1 (hF.live _ _ hi)
    obtain ⟨LA, LB, hL⟩ := List.append_of_mem hx
    have := (hL ▸ hF.seg).get
    rw [hi] at this
    cases this
    exact ⟨LA, x, LB, hL, rfl⟩
  have hget : ∀ LA x LB, L = LA ++ x :: LB → ∃ l', t.store.leaves[x.1]? = some (some l') :=
    fun LA x LB hL => ⟨_, (hL ▸ hF.seg).get⟩
  refine ⟨fun i l hi => ?_, fun i l j hi hj => ?_, fun i l j hi hj => ?_, e1, e2⟩
  · obtain ⟨LA, x, LB, rfl, rfl⟩ := key i l hi
    refine ⟨?_, fun y hy => hP y (List.mem_flatMap.2 ⟨x, by simp, hy⟩)⟩
    by_cases h2 : 2 ≤ (LA ++ x :: LB).length
    · exact hF.nonempty h2 x (by simp)
    · have hA : LA = [] := List.eq_nil_of_length_eq_zero (by simp at h2; omega)
      have hB : LB = [] := List.eq_nil_of_length_eq_zero (by simp at h2; omega)
      subst hA hB
      intro h0
      simp only at h0
      simp [h0] at hl
      omega
  · obtain ⟨LA, x, LB, hL, rfl⟩ := key i l hi
    cases LB with
    | nil => simp at hj
    | cons y LB =>
      simp only [hdId_cons, Option.some.injEq] at hj
      subst hj
      exact hget (LA ++ [x]) y LB (by simp [hL])
  · obtain ⟨LA, x, LB, hL, rfl⟩ := key i l hi
    rcases List.eq_nil_or_concat LA with rfl | ⟨LA, y, rfl⟩
    · simp at hj
    · simp only [List.concat_eq_append, lstId_concat, Option.some.injEq] at hj
      subst hj
      exact hget LA y (x :: LB) (by simp [hL])

variable {P : K × V → Prop} {t : Tree K V A}

theorem getLeaf_of_live {s : Store K V A} {i : Nat} {l : Leaf K V} (h : s.leaves[i]? = some (some l)) :
    s.getLeaf i = .ok l := by simp [Store.getLeaf, h]

theorem Leaf.dataAt_lt (l : Leaf K V) {j : Nat} (h : j < l.data.length) : l.dataAt j = .ok l.data[j] := by
  simp [Leaf.dataAt, readAt, List.getElem?_eq_getElem h]

/-- `first` and `last` in such a map. -/
theorem Walk.first_ok (w : Walk P t) (h : t.len ≠ 0) : ∃ x, t.first = .ok (some x) ∧ P x := by
  obtain ⟨i, l, h1, h2⟩ := w.first
  obtain ⟨h3, h4⟩ := w.item i l h2
  have hl : 0 < l.data.length := List.length_pos_iff.2 h3
  refine ⟨l.data[0], ?_, h4 _ (List.getElem_mem _)⟩
  have : t.isEmpty = false := by simpa [Tree.isEmpty] using h
  simp only [Tree.first, this, h1, ok_bind, getLeaf_of_live h2, Leaf.dataAt_lt l hl, pure_ok]
  rfl

theorem Walk.last_ok (w : Walk P t) (h : t.len ≠ 0) : ∃ x, t.last = .ok (some x) ∧ P x := by
  obtain ⟨i, l, h1, h2⟩ := w.last
  obtain ⟨h3, h4⟩ := w.item i l h2
  have hl : 0 < l.data.length := List.length_pos_iff.2 h3
  have hl' : l.data.length - 1 < l.data.length := by omega
  refine ⟨l.data[l.data.length - 1], ?_, h4 _ (List.getElem_mem _)⟩
  have : t.isEmpty = false := by simpa [Tree.isEmpty] using h
  have h0 : ¬ l.len = 0 := by simp only [Leaf.len]; omega
  simp only [Tree.last, this, h1, ok_bind, getLeaf_of_live h2, if_neg h0, pure_ok]
  simp [Leaf.len, Leaf.dataAt_lt l hl', ok_bind]

theorem first_empty (h : t.len = 0) : t.first = .ok none ∧ t.last = .ok none := by
  simp [Tree.first, Tree.last, Tree.isEmpty, h]

/-- The positions of an iterator. -/
structure Iter.On (t : Tree K V A) (it : Iter K V) : Prop where
  front : ∀ l, it.leaf = some l → it.leafOffset < l.data.length ∧ ∃ i : Nat, t.store.leaves[i]? = some (some l)
  back : ∀ l o, it.end_ = some (l, o) → o ≤ l.data.length ∧ ∃ i : Nat, t.store.leaves[i]? = some (some l)

theorem Walk.iter (w : Walk P t) : ∃ it, t.iter = .ok it ∧ it.On t ∧ it.len = t.len := by
  obtain ⟨i, l, h1, h2⟩ := w.first
  refine ⟨⟨t.len, some l, 0, none⟩, by simp only [Tree.iter, h1, ok_bind, getLeaf_of_live h2, pure_ok],
    ⟨?_, ?_⟩, rfl⟩
  · rintro _ ⟨⟩
    exact ⟨List.length_pos_iff.2 (w.item i l h2).1, i, h2⟩
  · rintro _ _ ⟨⟩

theorem Walk.call (w : Walk P t) {it : Iter K V} (h : it.On t) (d : Dir) :
    ∃ r it', it.call t d = .ok (r, it') ∧ it'.On t ∧ ∀ x, r = some x → P x := by
  cases d with
  | front =>
    show ∃ r it', it.next t = _ ∧ _
    unfold Iter.next
    split
    · exact ⟨none, it, rfl, h, by simp⟩
    split
    · exact ⟨none, it, rfl, h, by simp⟩
    · next l hl =>
      obtain ⟨h1, i, h2⟩ := h.front l hl
      have hx : P l.data[it.leafOffset] := (w.item i l h2).2 _ (List.getElem_mem _)
      simp only [Leaf.dataAt_lt l h1, ok_bind, pure_ok]
      split
      · next h3 =>
        refine ⟨_, _, rfl, ⟨fun l' hl' => ?_, h.back⟩, by rintro _ ⟨⟩; exact hx⟩
        simp only at hl'
        rw [hl] at hl'
        cases hl'
        exact ⟨h3, i, h2⟩
      · split
        · next j hj =>
          obtain ⟨l', h4⟩ := w.next i l j h2 hj
          simp only [getLeaf_of_live h4, ok_bind]
          refine ⟨_, _, rfl, ⟨fun l'' hl' => ?_, h.back⟩, by rintro _ ⟨⟩; exact hx⟩
          cases hl'
          exact ⟨List.length_pos_iff.2 (w.item j l' h4).1, j, h4⟩
        · exact ⟨_, _, rfl, ⟨fun l'' hl' => (by cases hl'), h.back⟩, by rintro _ ⟨⟩; exact hx⟩
  | back =>
    show ∃ r it', it.nextBack t = _ ∧ _
    unfold Iter.nextBack
    have atEnd : ∀ (i : Nat) (l : Leaf K V), t.store.leaves[i]? = some (some l) →
        ¬ l.len = 0 ∧ (∃ x, l.dataAt (l.len - 1) = .ok x ∧ P x) ∧
          (⟨it.len, it.leaf, it.leafOffset, some (l, l.len - 1)⟩ : Iter K V).On t := by
      intro i l hi
      obtain ⟨h3, h4⟩ := w.item i l hi
      have hl : 0 < l.data.length := List.length_pos_iff.2 h3
      have hl' : l.data.length - 1 < l.data.length := by omega
      refine ⟨by simp only [Leaf.len]; omega, ⟨_, Leaf.dataAt_lt l hl', h4 _ (List.getElem_mem _)⟩, h.front, ?_⟩
      rintro _ _ ⟨⟩
      exact ⟨by simp only [Leaf.len]; omega, i, hi⟩
    split
    · exact ⟨none, it, rfl, h, by simp⟩
    split
    · next l o hl =>
      obtain ⟨h1, i, h2⟩ := h.back l o hl
      split
      · next h3 =>
        have h5 : o - 1 < l.data.length := by omega
        simp only [Leaf.dataAt_lt l h5, ok_bind, pure_ok]
        refine ⟨_, _, rfl, ⟨h.front, ?_⟩, by rintro _ ⟨⟩; exact (w.item i l h2).2 _ (List.getElem_mem _)⟩
        rintro _ _ ⟨⟩
        exact ⟨by omega, i, h2⟩
      · split
        · exact ⟨none, it, rfl, h, by simp⟩
        · next j hj =>
          obtain ⟨l', h4⟩ := w.prev i l j h2 hj
          obtain ⟨a1, ⟨x, a2, a3⟩, a4⟩ := atEnd j l' h4
          simp only [getLeaf_of_live h4, ok_bind, if_neg a1, a2, pure_ok]
          exact ⟨_, _, rfl, a4, by rintro _ ⟨⟩; exact a3⟩
    · obtain ⟨j, l', h3, h4⟩ := w.last
      obtain ⟨a1, ⟨x, a2, a3⟩, a4⟩ := atEnd j l' h4
      simp only [h3, getLeaf_of_live h4, ok_bind, if_neg a1, a2, pure_ok]
      exact ⟨_, _, rfl, a4, by rintro _ ⟨⟩; exact a3⟩

/-- Any schedule of calls on an iterator of such a map. -/
theorem Walk.runCalls (w : Walk P t) (ds : List Dir) {it : Iter K V} (h : it.On t) :
    ∃ as, it.runCalls t ds = .ok as ∧ ∀ a ∈ as, ∀ x, a.1 = some x → P x := by
  induction ds generalizing it with
  | nil => exact ⟨[], rfl, by simp⟩
  | cons d ds ih =>
    obtain ⟨r, it', h1, h2, h3⟩ := w.call h d
    obtain ⟨as, h4, h5⟩ := ih h2
    refine ⟨(r, it'.sizeHint) :: as, by simp only [Iter.runCalls, h1, ok_bind, h4, pure_ok], ?_⟩
    rintro a ha
    rcases List.mem_cons.1 ha with rfl | ha
    · exact h3
    · exact h5 a ha

/-! ## Iterating forwards gives what dropping the map drops -/

/-- The borrowing iterator and the owning iterator stand at the same item. -/
structure Beside (t : Tree K V A) (it : Iter K V) (ii : IntoIter K V A) : Prop where
  store : ii.store = t.store
  len : it.len = ii.len
  pos : (∃ l, it.leaf = some l ∧ t.store.leaves[ii.pos.1]? = some (some l) ∧ ii.pos.2 = it.leafOffset ∧
      it.leafOffset < l.data.length) ∨
    ∃ l, t.store.leaves[ii.pos.1]? = some (some l) ∧ ii.pos.2 = l.data.length ∧
      ((∃ j l', l.next = some j ∧ t.store.leaves[j]? = some (some l') ∧ it.leaf = some l' ∧ it.leafOffset = 0) ∨
        l.next = none)

theorem Walk.beside_take (w : Walk P t) {it : Iter K V} {ii ii' : IntoIter K V A} {o : Option (K × V)} {fuel : Nat}
    {l : Leaf K V} {i : Nat} (hs : ii.store = t.store) (hlen : it.len = ii.len) (h0 : it.len ≠ 0)
    (hl : it.leaf = some l) (hi : t.store.leaves[i]? = some (some l)) (hp : ii.pos = (i, it.leafOffset))
    (hlt : it.leafOffset < l.data.length) (hn : ii.nextAux (fuel + 1) = .ok (o, ii')) :
    ∃ it', it.next t = .ok (o, it') ∧ Beside t it' ii' := by
  unfold IntoIter.nextAux at hn
  rw [if_neg (by omega), hs, hp] at hn
  simp only [getLeaf_of_live hi, ok_bind] at hn
  rw [if_pos (show it.leafOffset < l.len from hlt)] at hn
  obtain ⟨⟨kv, i2⟩, h1, hn⟩ := bind_ok hn
  unfold IntoIter.takeData at h1
  rw [List.getElem?_eq_getElem hlt] at h1
  simp only at h1
  split at h1
  · cases h1
  cases h1
  cases hn
  unfold Iter.next
  rw [if_neg h0, hl]
  simp only [Leaf.dataAt_lt l hlt, ok_bind, pure_ok]
  split
  · next h3 =>
    exact ⟨_, rfl, hs, by simp only; omega, .inl ⟨l, rfl, hi, rfl, h3⟩⟩
  · next h3 =>
    have h3 : ¬ it.leafOffset + 1 < l.data.length := h3
    split
    · next j hj =>
      obtain ⟨l', h4⟩ := w.next i l j hi hj
      simp only [getLeaf_of_live h4, ok_bind]
      exact ⟨_, rfl, hs, by simp only; omega, .inr ⟨l, hi, by simp only; omega, .inl ⟨j, l', hj, h4, rfl, rfl⟩⟩⟩
    · next hj =>
      exact ⟨_, rfl, hs, by simp only; omega, .inr ⟨l, hi, by simp only; omega, .inr hj⟩⟩

theorem Walk.beside_next (w : Walk P t) {it : Iter K V} {ii ii' : IntoIter K V A} {o : Option (K × V)}
    (h : Beside t it ii) (hn : ii.next = .ok (o, ii')) :
    ∃ it', it.next t = .ok (o, it') ∧ Beside t it' ii' := by
  by_cases h0 : it.len = 0
  · unfold IntoIter.next IntoIter.nextAux at hn
    rw [if_pos (by rw [← h.len]; exact h0)] at hn
    cases hn
    exact ⟨it, by simp [Iter.next, h0], h⟩
  · rcases h.pos with ⟨l, h1, h2, h3, h4⟩ | ⟨l, h1, h2, h3⟩
    · exact w.beside_take h.store h.len h0 h1 h2 (Prod.ext rfl h3) h4 hn
    · unfold IntoIter.next IntoIter.nextAux at hn
      rw [if_neg (by have := h.len; omega), h.store] at hn
      simp only [getLeaf_of_live h1, ok_bind] at hn
      rw [if_neg (by simp only [Leaf.len]; omega)] at hn
      rcases h3 with ⟨j, l', h5, h6, h7, h8⟩ | h5
      · rw [h5] at hn
        simp only at hn
        have hpos : 0 < t.store.leaves.length := by
          have := (List.getElem?_eq_some_iff.1 h6).1
          omega
        obtain ⟨m, hm⟩ : ∃ m, t.store.leaves.length = m + 1 := ⟨_, (Nat.sub_add_cancel hpos).symm⟩
        rw [hm] at hn
        exact w.beside_take (ii := { ii with store := t.store, pos := (j, 0) }) rfl h.len h0 h7 h6 (by rw [h8])
          (h8 ▸ List.length_pos_iff.2 (w.item j l' h6).1) hn
      · rw [h5] at hn
        cases hn

theorem runCalls_empty {it : Iter K V} (h : it.len = 0) (m : Nat) :
    ∃ as, it.runCalls t (List.replicate m .front) = .ok as ∧ as.map (·.1) = List.replicate m none := by
  induction m with
  | zero => exact ⟨[], rfl, rfl⟩
  | succ m ih =>
    obtain ⟨as, h1, h2⟩ := ih
    refine ⟨(none, it.sizeHint) :: as, ?_, by simp [h2, List.replicate_succ]⟩
    simp only [List.replicate_succ, Iter.runCalls, Iter.call, Iter.next, if_pos h, pure_ok, ok_bind, h1]

theorem Walk.beside_run (w : Walk P t) (n : Nat) {it : Iter K V} {ii : IntoIter K V A} {xs : List (K × V)}
    (h : Beside t it ii) (hd : ii.dropAux n = .ok xs) (m : Nat) :
    ∃ as, it.runCalls t (List.replicate m .front) = .ok as ∧
      as.map (·.1) = (xs.map some ++ List.replicate m none).take m := by
  induction n generalizing it ii xs m with
  | zero => cases hd
  | succ n ih =>
    unfold IntoIter.dropAux at hd
    obtain ⟨⟨o, ii'⟩, h1, hd⟩ := bind_ok hd
    cases o with
    | none =>
      cases hd
      by_cases h0 : it.len = 0
      · obtain ⟨as, h2, h3⟩ := runCalls_empty (t := t) h0 m
        exact ⟨as, h2, by simp [h3]⟩
      · exfalso
        obtain ⟨it', h2, -⟩ := w.beside_next h h1
        unfold Iter.next at h2
        rw [if_neg h0] at h2
        rcases h.pos with ⟨l, h3, h4, h5, h6⟩ | ⟨l, h3, h4, h5⟩
        · rw [h3] at h2
          simp only [Leaf.dataAt_lt l h6, ok_bind, pure_ok] at h2
          split at h2
          · cases h2
          · split at h2
            · obtain ⟨_, -, h2⟩ := bind_ok h2
              cases h2
            · cases h2
        · rcases h5 with ⟨j, l', h5, h6, h7, h8⟩ | h5
          · rw [h7] at h2
            have := List.length_pos_iff.2 (w.item j l' h6).1
            simp only [Leaf.dataAt_lt l' (h8 ▸ this), ok_bind, pure_ok] at h2
            split at h2
            · cases h2
            · split at h2
              · obtain ⟨_, -, h2⟩ := bind_ok h2
                cases h2
              · cases h2
          · unfold IntoIter.next IntoIter.nextAux at h1
            rw [if_neg (by have := h.len; omega), h.store] at h1
            simp only [getLeaf_of_live h3, ok_bind] at h1
            rw [if_neg (by simp only [Leaf.len]; omega), h5] at h1
            cases h1
    | some kv =>
      simp only at hd
      obtain ⟨rest, h2, hd⟩ := bind_ok hd
      cases hd
      obtain ⟨it', h3, h4⟩ := w.beside_next h h1
      cases m with
      | zero => exact ⟨[], rfl, by simp⟩
      | succ m =>
        obtain ⟨as, h5, h6⟩ := ih h4 h2 m
        refine ⟨(some kv, it'.sizeHint) :: as, ?_, ?_⟩
        · simp only [List.replicate_succ, Iter.runCalls, Iter.call, h3, ok_bind, h5, pure_ok]
        · simp only [List.map_cons, List.cons_append, List.take_succ_cons, h6, List.replicate_succ']
          rw [← List.append_assoc, List.take_append_of_le_length (l₂ := [none]) (by simp)]

/-- Iterating forwards gives the items that dropping the map drops. -/
theorem Walk.forward (w : Walk P t) {xs : List (K × V)} (hd : t.drop = .ok xs) :
    ∃ it, t.iter = .ok it ∧ ∀ m, ∃ as, it.runCalls t (List.replicate m .front) = .ok as ∧
      as.map (·.1) = (xs.map some ++ List.replicate m none).take m := by
  obtain ⟨i, l, h1, h2⟩ := w.first
  refine ⟨⟨t.len, some l, 0, none⟩, by simp only [Tree.iter, h1, ok_bind, getLeaf_of_live h2, pure_ok], fun m => ?_⟩
  unfold Tree.drop Tree.intoIter at hd
  rw [h1] at hd
  simp only [ok_bind] at hd
  obtain ⟨ii, h3, hd⟩ := bind_ok hd
  obtain ⟨j, h4, h3⟩ := bind_ok h3
  obtain ⟨l', h5, h3⟩ := bind_ok h3
  cases h3
  exact w.beside_run _ ⟨rfl, rfl, .inl ⟨l, rfl, h2, rfl, List.length_pos_iff.2 (w.item i l h2).1⟩⟩ hd m

/-- `first` gives the first item that dropping the map drops. -/
theorem Walk.first_of_drop (w : Walk P t) {xs : List (K × V)} (hd : t.drop = .ok xs) : t.first = .ok xs.head? := by
  obtain ⟨it, h1, h2⟩ := w.forward hd
  obtain ⟨as, h3, h4⟩ := h2 1
  obtain ⟨i, l, h5, h6⟩ := w.first
  have hl := List.length_pos_iff.2 (w.item i l h6).1
  simp only [Tree.iter, h5, ok_bind, getLeaf_of_live h6, pure_ok] at h1
  cases h1
  by_cases h0 : t.len = 0
  · have : xs = [] := by
      obtain ⟨as', h3', h4'⟩ := runCalls_empty (t := t) (it := ⟨t.len, some l, 0, none⟩) h0 1
      rw [h3] at h3'
      cases h3'
      rw [h4] at h4'
      cases xs with
      | nil => rfl
      | cons x xs => simp at h4'
    rw [(first_empty h0).1, this]; rfl
  · have he : t.isEmpty = false := by simpa [Tree.isEmpty] using h0
    have hf : t.first = .ok (some l.data[0]) := by
      simp only [Tree.first, he, h5, ok_bind, getLeaf_of_live h6, Leaf.dataAt_lt l hl, pure_ok]
      rfl
    have hx : as.map (·.1) = [some l.data[0]] := by
      have h3 : (do
          let (o, it) ← Iter.next t ⟨t.len, some l, 0, none⟩
          let rest ← Iter.runCalls t it []
          (return (o, it.sizeHint) :: rest : Res _)) = .ok as := h3
      unfold Iter.next at h3
      rw [if_neg h0] at h3
      simp only [Leaf.dataAt_lt l hl, ok_bind, pure_ok, Iter.runCalls] at h3
      split at h3
      · cases h3; rfl
      · split at h3
        · obtain ⟨_, h7, h3⟩ := bind_ok h3
          obtain ⟨_, -, h7⟩ := bind_ok h7
          cases h7
          cases h3; rfl
        · cases h3; rfl
    rw [hx] at h4
    rw [hf]
    cases xs with
    | nil => simp at h4
    | cons x xs => simpa using h4

/-! ## The last item of a map -/

/-- When the only item is gone but still counted, there is nothing to read. -/
theorem Holding.emptied (h : Holding P 0 t) (hl : t.len = 1) :
    t.first = .error .ub ∧ t.last = .error .panic ∧
      ∃ it, t.iter = .ok it ∧ ∀ ds, it.runCalls t (.front :: ds) = .error .ub := by
  obtain ⟨⟨i, l, h1, h2⟩, j, l', h3, h4⟩ := h.ends
  obtain ⟨H, L, -, -, hF, -, hn⟩ := h
  have hnil : ∀ (i : Nat) (l : Leaf K V), t.store.leaves[i]? = some (some l) → l.data = [] := by
    intro i l hi
    obtain ⟨x, hx, rfl⟩ := List.mem_map.1 (hF.live _ _ hi)
    obtain ⟨LA, LB, rfl⟩ := List.append_of_mem hx
    have := hF.seg.get
    rw [hi] at this
    cases this
    refine List.eq_nil_of_length_eq_zero ?_
    simp at hn ⊢
    exact hn.2.1
  have he : t.isEmpty = false := by simp [Tree.isEmpty, hl]
  refine ⟨?_, ?_, ⟨1, some l, 0, Option.none⟩, ?_, fun ds => ?_⟩
  · simp only [Tree.first, he, h1, ok_bind, getLeaf_of_live h2, Leaf.dataAt, hnil i l h2]
    rfl
  · have : l'.len = 0 := by simp [Leaf.len, hnil j l' h4]
    simp only [Tree.last, he, h3, ok_bind, getLeaf_of_live h4, if_pos this]
    rfl
  · simp only [Tree.iter, h1, ok_bind, getLeaf_of_live h2, pure_ok, hl]
  · simp only [Iter.runCalls, Iter.call, Iter.next, Leaf.dataAt, hnil i l h2]
    rfl

/-! ## The length and the statistics during a removal -/

theorem Traced.all_any_mapMem {σ τ α : Type} {f : σ → τ} {x : Traced σ α} {Q : Callback → τ → Prop}
    (h : ∀ c m, Q c (f m)) : (Traced.mapMem f x).All Q :=
  Traced.all_mapMem fun _ _ _ => h _ _

section
variable [Augmentation K V A]

theorem removeT_len (o : Answers K) (t : Tree K V A) : (t.removeT o).All (fun _ m => m.len = t.len) := by
  refine Traced.all_call_bind rfl <| Traced.all_lift_bind fun r _ => ?_
  cases r with
  | none => exact Traced.all_pure
  | some e =>
    refine Traced.all_bind ?_ fun _ _ => Traced.all_pure
    refine Traced.all_lift_bind fun _ _ => Traced.all_lift_bind fun _ _ =>
      Traced.all_bind (Traced.all_any_mapMem fun _ _ => rfl) fun _ _ => Traced.all_lift_bind fun _ _ =>
      Traced.all_bind (newAugmentationT_all (fun _ => rfl) (fun _ => rfl)) fun _ _ =>
      Traced.all_guard fun _ => Traced.all_pure

omit [Augmentation K V A] in
theorem keyToRefU_leaf {o : Answers K} {t : Tree K V A} {i : Nat} (h : t.root = .leaf i) {e : EntryRef}
    (he : t.keyToRefU o = .ok (some e)) : e.stack = [] := by
  unfold Tree.keyToRefU at he
  have hd : descendLeaf t.store (stackStepU o) [] t.root = .ok ([], i) := by
    rw [h]
    unfold descendLeaf
    generalize t.store.fuel = n
    cases n <;> rfl
  rw [hd] at he
  simp only [ok_bind] at he
  obtain ⟨l, -, he⟩ := bind_ok he
  obtain ⟨s, -, he⟩ := bind_ok he
  cases s <;> cases he
  rfl

theorem removeT_leaf_st (o : Answers K) (t : Tree K V A) {i : Nat} (h : t.root = .leaf i) :
    (t.removeT o).All (fun _ m => m.st = t.st) := by
  refine Traced.all_call_bind rfl <| Traced.all_lift_bind fun r hr => ?_
  cases r with
  | none => exact Traced.all_pure
  | some e =>
    have he := keyToRefU_leaf h hr
    refine Traced.all_bind ?_ fun _ _ => Traced.all_pure
    unfold Tree.removeByRefT
    rw [he]
    refine Traced.all_lift_bind fun _ _ => Traced.all_lift_bind fun p _ =>
      Traced.all_bind (by simp [removeAscendT, Traced.mapMem, Traced.All, pure]) fun q hq => ?_
    have hq2 : q.2.2 = t.st := by
      rw [Traced.result_mapMem] at hq
      simp only [removeAscendT] at hq
      cases hq
      rfl
    refine Traced.all_lift_bind fun _ _ =>
      Traced.all_bind (newAugmentationT_all (fun _ => hq2) (fun _ => hq2)) fun _ _ =>
      Traced.all_guard fun _ => Traced.all_pure

theorem removeD_mem {o : Answers K} {t : Tree K V A} {cb : Callback} {m : Tree K V A}
    (hm : (cb, m) ∈ (t.removeD o).trace) :
    (∃ e, t.keyToRefU o = .ok (some e) ∧ (cb, m) ∈ (t.removeByRefD e).trace) ∨ ∃ r, t.removeU o = .ok (r, m) := by
  have hres := removeD_result o t
  rw [removeT_result] at hres
  rcases Traced.mem_bind.1 hm with hm | ⟨r, hr, hm⟩
  · simp at hm
  have hr : t.keyToRefU o = .ok r := hr
  cases r with
  | none => simp at hm
  | some e =>
    rcases Traced.mem_bind.1 hm with hm | ⟨q, hq, hm⟩
    · exact .inl ⟨e, hr, hm⟩
    · refine .inr ?_
      rcases Traced.mem_bind.1 hm with hm | ⟨_, -, hm⟩
      · simp only [Traced.trace_call, List.mem_singleton, Prod.mk.injEq] at hm
        obtain ⟨rfl, rfl⟩ := hm
        refine ⟨some q.1.2, ?_⟩
        rw [← hres]
        unfold Tree.removeD
        rw [Traced.result_bind, Traced.result_lift, hr]
        simp only [ok_bind]
        rw [Traced.result_bind, hq]
        rfl
      · simp at hm

theorem removeD_len (o : Answers K) (t : Tree K V A) :
    (t.removeD o).All (fun _ m => m.len = t.len ∨ ∃ r, t.removeU o = .ok (r, m)) := by
  refine fun cb m hm => (removeD_mem hm).imp ?_ id
  rintro ⟨e, -, hm⟩
  have : (t.removeByRefD e).All (fun _ m => m.len = t.len) := by
    refine Traced.all_lift_bind fun _ _ => Traced.all_lift_bind fun _ _ =>
      Traced.all_bind (Traced.all_any_mapMem fun _ _ => rfl) fun _ _ => Traced.all_lift_bind fun _ _ =>
      Traced.all_lift_bind fun _ _ => Traced.all_call_bind rfl <| Traced.all_guard fun _ => Traced.all_pure
  exact this cb m hm

theorem removeD_leaf_st (o : Answers K) (t : Tree K V A) {i : Nat} (h : t.root = .leaf i) :
    (t.removeD o).All (fun _ m => m.st = t.st ∨ ∃ r, t.removeU o = .ok (r, m)) := by
  refine fun cb m hm => (removeD_mem hm).imp ?_ id
  rintro ⟨e, hr, hm⟩
  have he := keyToRefU_leaf h hr
  have : (t.removeByRefD e).All (fun _ m => m.st = t.st) := by
    unfold Tree.removeByRefD
    rw [he]
    refine Traced.all_lift_bind fun _ _ => Traced.all_lift_bind fun p _ =>
      Traced.all_bind (by simp [removeAscendD, Traced.mapMem, Traced.All, pure]) fun q hq => ?_
    have hq2 : q.2.2 = t.st := by
      rw [Traced.result_mapMem] at hq
      simp only [removeAscendD] at hq
      cases hq
      rfl
    exact Traced.all_lift_bind fun _ _ => Traced.all_lift_bind fun _ _ =>
      Traced.all_call_bind hq2 <| Traced.all_guard fun _ => Traced.all_pure
  exact this cb m hm

end

/-- A map with at most one item is one leaf. -/
theorem UInvM.root_leaf {t : Tree K V A} {l : List (K × V)} {μ : Nat} (h : UInvM μ t l) (hl : t.len ≤ 1) :
    ∃ i, t.root = .leaf i := by
  obtain ⟨H, g, w, rfl⟩ := h.ghost
  cases H with
  | zero => exact ⟨_, w.root⟩
  | succ H =>
    exfalso
    have h1 := root_size w.shape
    have := w.len
    have := Nat.one_le_pow H 17 (by omega)
    omega

end Bpt
