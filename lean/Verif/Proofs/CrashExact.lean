import Verif.Proofs.CrashRemove

/-!
# What dropping the map does at the remaining crash points

A walk along the leaves that runs off their end: into a slot without a leaf, or past the last one.
-/

namespace Bpt
variable {K V A : Type}

/-- The slots `m` hold the leaves `L`, each naming the one after it, and the last one naming `e`. -/
def Fwd (m : List (Option (Leaf K V))) : List (Nat × List (K × V)) → Option Nat → Prop
  | [], _ => True
  | x :: L, e => (∃ p, m[x.1]? = some (some ⟨x.2, p, hdId L e⟩)) ∧ Fwd m L e

theorem Seg.fwd {m : List (Option (Leaf K V))} {p n : Option Nat} {L : List (Nat × List (K × V))}
    (h : Seg m p L n) : Fwd m L n := by
  induction L generalizing p with
  | nil => trivial
  | cons x L ih => exact ⟨⟨p, h.1⟩, ih h.2⟩

theorem Fwd.append {m : List (Option (Leaf K V))} {L L' : List (Nat × List (K × V))} {e : Option Nat} :
    Fwd m (L ++ L') e ↔ Fwd m L (hdId L' e) ∧ Fwd m L' e := by
  induction L with
  | nil => simp [Fwd]
  | cons x L ih =>
    simp only [List.cons_append, Fwd, ih, hdId_append]
    tauto

theorem Fwd.set {m : List (Option (Leaf K V))} {L : List (Nat × List (K × V))} {e : Option Nat}
    {i : Nat} {v : Option (Leaf K V)} (hi : i ∉ L.map (·.1)) (hm : Fwd m L e) : Fwd (m.set i v) L e := by
  induction L with
  | nil => trivial
  | cons x L ih =>
    simp only [List.map_cons, List.mem_cons, not_or] at hi
    refine ⟨?_, ih hi.2 hm.2⟩
    rw [List.getElem?_set_ne hi.1]
    exact hm.1

/-- What the walk does at the end of the leaves: it finds no leaf in slot `e`, or there is no `e`. -/
def Beyond (s : Store K V A) : Option Nat → Fault → Prop
  | none, f => f = .panic
  | some i, f => f = .ub ∧ ¬ ∃ l, s.leaves[i]? = some (some l)

theorem dropAux_fwd {s : Store K V A} {e : Option Nat} {f : Fault} (he : Beyond s e f) (n : Nat)
    {it : IntoIter K V A} (hs : it.store = s) {x : Nat × List (K × V)} {L : List (Nat × List (K × V))}
    (hf : Fwd s.leaves (x :: L) e) (hd : ((x :: L).map (·.1)).Nodup) {q : Nat}
    (hp : it.pos = (x.1, q)) (hq : q ≤ x.2.length) (hne : ∀ y ∈ L, y.2 ≠ [])
    (ht : ∀ i r, (i, r) ∈ it.taken → (i = x.1 → r < q) ∧ i ∉ L.map (·.1))
    (hlen : (x.2.length - q) + (L.flatMap (·.2)).length < it.len) (hn : it.len ≤ n) :
    it.dropAux n = .error f := by
  induction n generalizing it x L q with
  | zero => omega
  | succ n ih =>
    obtain ⟨⟨p, hx⟩, hfL⟩ := hf
    have hlt : x.1 < s.leaves.length := (List.getElem?_eq_some_iff.1 hx).1
    obtain ⟨m, hm⟩ : ∃ m, s.leaves.length = m + 1 := ⟨s.leaves.length - 1, by omega⟩
    have hgx : s.getLeaf x.1 = .ok ⟨x.2, p, hdId L e⟩ := by simp [Store.getLeaf, hx]
    unfold IntoIter.dropAux IntoIter.next
    rw [hs, hm]
    unfold IntoIter.nextAux
    rw [if_neg (by omega), hs, hp, hgx]
    simp only [ok_bind, Leaf.len]
    by_cases hlt' : q < x.2.length
    · simp only [hlt', if_true]
      have hnot : (x.1, q) ∉ it.taken := fun h => by
        have := (ht _ _ h).1 rfl
        omega
      simp only [IntoIter.takeData, List.getElem?_eq_getElem hlt', if_neg hnot, ok_bind, pure_ok]
      rw [ih (it := { it with taken := (x.1, q) :: it.taken, len := it.len - 1, pos := (x.1, q + 1) })
        hs (x := x) (L := L) (q := q + 1) ⟨⟨p, hx⟩, hfL⟩ hd rfl hlt' hne ?_ (by simp only; omega)
        (by simp only; omega)]
      · rfl
      · intro i r hir
        simp only [List.mem_cons, Prod.mk.injEq] at hir
        rcases hir with ⟨rfl, rfl⟩ | hir
        · refine ⟨fun _ => by omega, ?_⟩
          simpa using (List.nodup_cons.1 hd).1
        · have := ht i r hir
          exact ⟨fun h => by have := this.1 h; omega, this.2⟩
    · simp only [hlt', if_false]
      cases L with
      | nil =>
        cases e with
        | none =>
          cases he
          rfl
        | some i =>
          obtain ⟨rfl, he⟩ := he
          have hgi : s.getLeaf i = .error .ub := by
            unfold Store.getLeaf
            split
            · next l e => exact absurd ⟨l, e⟩ he
            · rfl
          simp only [hdId_nil]
          unfold IntoIter.nextAux
          simp only
          rw [if_neg (by omega), hgi]
          rfl
      | cons y L =>
        obtain ⟨⟨p', hy⟩, hfL'⟩ := hfL
        have hgy : s.getLeaf y.1 = .ok ⟨y.2, p', hdId L e⟩ := by simp [Store.getLeaf, hy]
        have hy0 : 0 < y.2.length := List.length_pos_of_ne_nil (hne y (by simp))
        simp only [hdId_cons]
        unfold IntoIter.nextAux
        simp only
        rw [if_neg (by omega), hgy]
        simp only [ok_bind, Leaf.len]
        simp only [hy0, if_true]
        have hnot : (y.1, 0) ∉ it.taken := fun h => by
          have := (ht _ _ h).2
          simp at this
        simp only [IntoIter.takeData, List.getElem?_eq_getElem hy0, if_neg hnot, ok_bind, pure_ok]
        simp only [List.flatMap_cons, List.length_append] at hlen
        simp only [List.map_cons, List.nodup_cons, List.mem_cons, not_or] at hd
        rw [ih (it := { it with store := s, taken := (y.1, 0) :: it.taken, len := it.len - 1, pos := (y.1, 0 + 1) })
          rfl (x := y) (L := L) (q := 0 + 1) ⟨⟨p', hy⟩, hfL'⟩ (by simpa using hd.2) rfl hy0
          (fun z hz => hne z (by simp [hz])) ?_ (by simp only; omega)
          (by simp only; omega)]
        · rfl
        · intro i r hir
          simp only [List.mem_cons, Prod.mk.injEq] at hir
          rcases hir with ⟨rfl, rfl⟩ | hir
          · refine ⟨fun _ => by omega, ?_⟩
            simpa using hd.2.1
          · have := (ht i r hir).2
            simp only [List.map_cons, List.mem_cons, not_or] at this
            exact ⟨fun h => absurd h this.1, this.2⟩

/-- The descents read only the inner nodes. -/
theorem descend_inners {σ β : Type} {s s' : Store K V A} (e : s'.inners = s.inners)
    (step : σ → Nat → Inner K A → Res (β ⊕ (σ × NodeId))) (n : Nat) (st : σ) (i : NodeId) :
    descend s' step n st i = descend s step n st i := by
  induction n generalizing st i with
  | zero => cases i <;> rfl
  | succ n ih =>
    cases i with
    | leaf i => rfl
    | inner i =>
      unfold descend Store.getInner
      rw [e]
      simp only [ih]

theorem firstLeaf_inners {t : Tree K V A} {s' : Store K V A} (e : s'.inners = t.store.inners) :
    ({ t with store := s' } : Tree K V A).firstLeaf = t.firstLeaf := by
  unfold Tree.firstLeaf descendLeaf
  simp only [descend_inners e, Store.fuel, e]

theorem lastLeaf_inners {t : Tree K V A} {s' : Store K V A} (e : s'.inners = t.store.inners) :
    ({ t with store := s' } : Tree K V A).lastLeaf = t.lastLeaf := by
  unfold Tree.lastLeaf descendLeaf
  simp only [descend_inners e, Store.fuel, e]

/-- Dropping a map whose descents are those of `t` and whose leaves end too early. -/
theorem drop_fwd {t : Tree K V A} {i j : Nat} {x : Nat × List (K × V)} {L : List (Nat × List (K × V))}
    {e : Option Nat} {f : Fault} (he : Beyond t.store e f) (hf : Fwd t.store.leaves (x :: L) e)
    (hd : ((x :: L).map (·.1)).Nodup) (hne : ∀ y ∈ L, y.2 ≠ []) (hi : t.firstLeaf = .ok i)
    (hx : x.1 = i) (hj : t.lastLeaf = .ok j) (hlen : ((x :: L).flatMap (·.2)).length < t.len) :
    t.drop = .error (open Classical in if (∃ l, t.store.leaves[j]? = some (some l)) then f else .ub) := by
  unfold Tree.drop Tree.intoIter
  rw [hi, hj]
  simp only [ok_bind]
  split
  · next h =>
    obtain ⟨l, hl⟩ := h
    have hg : t.store.getLeaf j = .ok l := by simp [Store.getLeaf, hl]
    simp only [hg, ok_bind, pure_ok, IntoIter.drop]
    simp only [List.flatMap_cons, List.length_append] at hlen
    exact dropAux_fwd he _ rfl hf hd (q := 0) (by simp [hx]) (Nat.zero_le _) hne (by simp)
      (by simp only; omega) (by simp only; omega)
  · next h =>
    have hg : t.store.getLeaf j = .error .ub := by
      unfold Store.getLeaf
      split
      · next l e => exact absurd ⟨l, e⟩ h
      · rfl
    simp only [hg, error_bind]

theorem head_like {LA R R' L : List (Nat × List (K × V))} {i : Nat} {d d' : List (K × V)}
    {x : Nat × List (K × V)} (h : LA ++ (i, d) :: R = x :: L) :
    ∃ x' L', LA ++ (i, d') :: R' = x' :: L' ∧ x'.1 = x.1 := by
  cases LA with
  | nil =>
    simp only [List.nil_append, List.cons.injEq] at h
    exact ⟨_, _, rfl, by rw [← h.1]⟩
  | cons y LA =>
    simp only [List.cons_append, List.cons.injEq] at h
    exact ⟨_, _, rfl, by rw [← h.1]⟩

/-- `split_new_leaf` keeps at least 32 and fewer than 64 items in the left leaf. -/
theorem splitNewLeaf_left {l l' r : Leaf K V} {i a b : Nat} {x : K × V}
    (h : l.splitNewLeaf i x a b = .ok (l', r)) :
    l.data.length = 64 ∧ 32 ≤ l'.data.length ∧ l'.data.length < 64 ∧ l'.prev = l.prev ∧
      l'.next = some a := by
  unfold Leaf.splitNewLeaf at h
  split at h
  · cases h
  next h64 =>
  have h64 : l.data.length = 64 := by simpa [Leaf.len, leafN] using h64
  split at h
  · obtain ⟨d, h1, h⟩ := bind_ok h
    have h := (Prod.mk.inj (Except.ok.inj h)).1
    rw [← h]
    obtain ⟨h2, h3⟩ := sliceInsert_eq h1
    refine ⟨h64, ?_, ?_, rfl, rfl⟩ <;> rw [h3] <;>
      simp only [List.length_append, List.length_cons, List.length_take, List.length_drop,
        splitOrigin] at h2 ⊢ <;> omega
  · obtain ⟨d, h1, h⟩ := bind_ok h
    have h := (Prod.mk.inj (Except.ok.inj h)).1
    rw [← h]
    refine ⟨h64, ?_, ?_, rfl, rfl⟩ <;>
      simp only [List.length_take, splitOrigin] <;> omega

theorem insertLeafT_clone {μ : Nat} {t : Tree K V A} {H : Nat} {g : T K V A H} (w : WF0 μ t g)
    {LA LB : List (Nat × List (K × V))} {id : Nat} {d : List (K × V)}
    (hleaves : g.leaves = LA ++ (id, d) :: LB) (o : Answers K) (k : K) (v : V) :
    (insertLeafT o t.store id k v).All (fun c m => c = .cloneKey →
      ({ t with store := m } : Tree K V A).drop = .error .ub) := by
  have hget := w.flat.get hleaves
  have hseg := w.seg
  have hnd := w.lnodup
  rw [hleaves] at hseg hnd
  have hget' : t.store.leaves[id]? = some (some ⟨d, lstId none LA, hdId LB none⟩) := hseg.get
  have hidlt := (List.getElem?_eq_some_iff.1 hget').1
  refine Traced.all_lift_bind fun leaf hl => Traced.all_call_bind (by simp) <|
    Traced.all_lift_bind fun slot _ => Traced.all_lift_bind fun r hr => ?_
  obtain ⟨leaf', u⟩ := r
  cases u with
  | inserted => exact Traced.all_pure
  | updated v0 => exact Traced.all_pure
  | isFull idx k v =>
    refine Traced.all_lift_bind fun l2 hl2 => Traced.all_lift_bind fun q hq =>
      Traced.all_lift_bind fun kv _ => Traced.all_call_bind (fun _ => ?_) <|
      Traced.all_lift_bind fun _ _ => Traced.all_lift_bind fun _ _ => Traced.all_pure
    obtain ⟨lL, rL⟩ := q
    have hl2 : l2 = ⟨d, lstId none LA, hdId LB none⟩ := by
      have h := hl2
      simp only [Store.reserveLeaf, Store.getLeaf, List.getElem?_append_left hidlt, hget'] at h
      exact (Except.ok.inj h).symm
    subst hl2
    obtain ⟨h64, h32, hlt, hpv, hnx⟩ := splitNewLeaf_left hq
    simp only at h64
    obtain ⟨x0, L0, hx0, hfirst⟩ := w.reads.first
    obtain ⟨Lz, z, hz, hlast⟩ := w.reads.last
    rw [hleaves] at hx0
    obtain ⟨x1, L1, hx1, he1⟩ := head_like (R' := []) (d' := lL.data) hx0
    simp only [Store.reserveLeaf]
    have hin : (({ t.store with leaves := t.store.leaves ++ [none] } : Store K V A).setLeaf id lL).inners
      = t.store.inners := rfl
    have hmem : ∀ y ∈ LA, y.1 ≠ id := by
      intro y hy e
      simp only [List.map_append, List.map_cons, List.nodup_append] at hnd
      exact hnd.2.2 _ (List.mem_map_of_mem hy) _ (by simp) e
    have hidn : id ∉ LA.map (·.1) := fun h => by
      obtain ⟨y, hy, e⟩ := List.mem_map.1 h
      exact hmem y hy e
    have hfw : Fwd ((t.store.leaves ++ [none]).set id (some lL)) (LA ++ [(id, lL.data)])
        (some t.store.leaves.length) := by
      rw [Fwd.append]
      constructor
      · refine Fwd.set hidn ?_
        have := (Seg.append.1 hseg).1
        exact this.push.fwd
      · refine ⟨⟨lL.prev, ?_⟩, trivial⟩
        rw [List.getElem?_set_self (by simp; omega)]
        obtain ⟨dd, pp, nn⟩ := lL
        simp only at hnx
        subst hnx
        rfl
    have hb : Beyond (({ t.store with leaves := t.store.leaves ++ [none] } : Store K V A).setLeaf id lL)
        (some t.store.leaves.length) .ub := by
      refine ⟨rfl, ?_⟩
      rintro ⟨l, h⟩
      simp only [Store.setLeaf] at h
      rw [List.getElem?_set_ne (by omega)] at h
      simp at h
    have hlen : ((LA ++ [(id, lL.data)]).flatMap (·.2)).length < t.len := by
      rw [w.len, T.toL, hleaves]
      simp only [List.flatMap_append, List.flatMap_cons, List.flatMap_nil, List.length_append,
        List.length_nil]
      omega
    have hne : ∀ y ∈ LA ++ [(id, lL.data)], y.2 ≠ [] := by
      intro y hy
      rcases List.mem_append.1 hy with hy | hy
      · refine w.flat.nonempty ?_ y (by rw [hleaves]; simp [hy])
        have := List.length_pos_of_mem hy
        rw [hleaves]
        simp only [List.length_append, List.length_cons]
        omega
      · simp only [List.mem_singleton] at hy
        subst hy
        intro h0
        have h0 : lL.data = [] := h0
        rw [h0] at h32
        simp at h32
    have hnd' : ((LA ++ [(id, lL.data)]).map (·.1)).Nodup := by
      have : ((LA ++ [(id, lL.data)]).map (·.1)).Sublist ((LA ++ (id, d) :: LB).map (·.1)) := by
        simp
      exact hnd.sublist this
    rw [hx1] at hfw hlen hne hnd'
    have := drop_fwd (t := { t with store := _ }) hb hfw hnd' (fun y hy => hne y (by simp [hy]))
      ((firstLeaf_inners hin).trans hfirst) he1 ((lastLeaf_inners hin).trans hlast) hlen
    refine Eq.trans this ?_
    simp

section
variable [Augmentation K V A]

/-- If `K::clone` panics during an insertion, dropping the map is undefined behaviour. -/
theorem insertT_clone {μ : Nat} {t : Tree K V A} {l : List (K × V)} (h : UInvM μ t l)
    (o : Answers K) (k : K) (v : V) :
    (t.insertT o k v).All (fun c t' => c = .cloneKey → t'.drop = .error .ub) := by
  obtain ⟨H, g, w, hl⟩ := h.ghost
  obtain ⟨c, x, hp, hlen, hdesc⟩ := descend_stackU w (w.depth h.lt) o
  have hleaves : g.leaves = c.lvL ++ (x.id, x.data) :: c.lvR := by
    rw [← hp, Ctx.leaves_plug]; simp [T.leaves]
  refine Traced.all_mapMem
    (Traced.all_bind ?_ fun _ _ => finishInsertT_kind _ _ _
      (fun _ h => by cases h) (fun _ h => by cases h))
  have hleaf := insertLeafT_clone w hleaves o k v
  cases hroot : t.root with
  | leaf i =>
    rw [hroot] at hdesc hleaf
    have hid : i = x.id := by
      have : descendLeaf t.store (stackStepU o) [] (.leaf i) = .ok ([], i) := by
        unfold descendLeaf descend
        cases t.store.fuel <;> rfl
      rw [this] at hdesc
      exact (Prod.mk.inj (Except.ok.inj hdesc)).2
    subst hid
    exact hleaf
  | inner i =>
    rw [hroot] at hdesc hleaf
    refine Traced.all_call_bind (by simp) <| Traced.all_lift_bind fun p hp => ?_
    rw [hdesc] at hp
    cases hp
    exact Traced.all_bind hleaf fun q _ =>
      insertAscendT_kind (fun _ _ h => by cases h) (fun _ _ h => by cases h) _ _ _


/-! ## Merging two leaves -/

omit [Augmentation K V A] in
/-- The memory while two leaves are merged: the right one is gone, the left one holds the items of both
except one, and everything else is as before. -/
structure Merging (s m : Store K V A) (L : List (Nat × List (K × V))) : Prop where
  inners : m.inners = s.inners
  leaves : ∃ LA yi yd xi xd LB d, L = LA ++ (yi, yd) :: (xi, xd) :: LB ∧
    m.leaves = (s.leaves.set xi none).set yi (some ⟨d, lstId none LA, hdId LB none⟩) ∧
    d.length + 1 = yd.length + xd.length

omit [Augmentation K V A] in
theorem Merging.drop {μ : Nat} {t : Tree K V A} {H : Nat} {g : T K V A H} (w : WF0 μ t g)
    {m : Store K V A} (hm : Merging t.store m g.leaves) :
    ∃ j, ({ t with store := m } : Tree K V A).lastLeaf = .ok j ∧
      ({ t with store := m } : Tree K V A).drop
        = .error (open Classical in if (∃ l, m.leaves[j]? = some (some l)) then .panic else .ub) := by
  obtain ⟨hin, LA, yi, yd, xi, xd, LB, d, hL, hlv, hd⟩ := hm
  obtain ⟨x0, L0, hx0, hfirst⟩ := w.reads.first
  obtain ⟨Lz, z, hz, hlast⟩ := w.reads.last
  refine ⟨z.1, (lastLeaf_inners hin).trans hlast, ?_⟩
  have hseg := w.seg
  have hnd := w.lnodup
  have hne := w.flat.nonempty (by rw [hL]; simp only [List.length_append, List.length_cons]; omega)
  rw [hL] at hseg hnd hne hx0
  obtain ⟨x1, L1, hx1, he1⟩ := head_like (R' := LB) (d' := d) hx0
  have hy : yd ≠ [] := hne (yi, yd) (by simp)
  have hx : xd ≠ [] := hne (xi, xd) (by simp)
  have hy := List.length_pos_of_ne_nil hy
  have hx := List.length_pos_of_ne_nil hx
  have hnd0 := hnd
  simp only [List.map_append, List.map_cons, List.nodup_append, List.nodup_cons, List.mem_cons,
    not_or] at hnd
  obtain ⟨n1, ⟨⟨n2, n3⟩, n4, n5⟩, n6⟩ := hnd
  have hyLA : yi ∉ LA.map (·.1) := fun h => n6 _ h _ (.inl rfl) rfl
  have hxLA : xi ∉ LA.map (·.1) := fun h => n6 _ h _ (.inr (.inl rfl)) rfl
  obtain ⟨s1, s2⟩ := Seg.append.1 hseg
  obtain ⟨s2, s3, s4⟩ := s2
  have hylt : yi < t.store.leaves.length := (List.getElem?_eq_some_iff.1 s2).1
  have hfw : Fwd m.leaves (LA ++ (yi, d) :: LB) none := by
    rw [hlv, Fwd.append]
    refine ⟨Fwd.set hyLA (Fwd.set hxLA ?_), ⟨lstId none LA, ?_⟩, Fwd.set n3 (Fwd.set n4 s4.fwd)⟩
    · exact s1.fwd
    · rw [List.getElem?_set_self (by simpa using hylt)]
  have hlen : ((LA ++ (yi, d) :: LB).flatMap (·.2)).length < t.len := by
    rw [w.len, T.toL, hL]
    simp only [List.flatMap_append, List.flatMap_cons, List.length_append]
    omega
  have hne' : ∀ y ∈ LA ++ (yi, d) :: LB, y.2 ≠ [] := by
    intro y hy
    simp only [List.mem_append, List.mem_cons] at hy
    rcases hy with hy | rfl | hy
    · exact hne y (by simp [hy])
    · intro h0
      have h0 : d = [] := h0
      rw [h0] at hd
      simp only [List.length_nil] at hd
      omega
    · exact hne y (by simp [hy])
  have hnd' : ((LA ++ (yi, d) :: LB).map (·.1)).Nodup := by
    have : ((LA ++ (yi, d) :: LB).map (·.1)).Sublist
        ((LA ++ (yi, yd) :: (xi, xd) :: LB).map (·.1)) := by
      simp
    exact hnd0.sublist this
  rw [hx1] at hfw hlen hne' hnd'
  exact drop_fwd (t := { t with store := m }) (e := none) (f := .panic) rfl hfw hnd'
    (fun y hy => hne' y (by simp [hy]))
    ((firstLeaf_inners hin).trans hfirst) he1 ((lastLeaf_inners hin).trans hlast) hlen

omit [Augmentation K V A] in
theorem extend_data {l l' : Leaf K V} {xs : List (K × V)} (h : l.extend xs = .ok l') :
    l' = { l with data := l.data ++ xs } := by
  unfold Leaf.extend at h
  split at h
  · exact (Except.ok.inj h).symm
  · cases h

omit [Augmentation K V A] in
/-- Two neighbouring children of a node above the leaves. -/
theorem neighbours {ks : List (T K V A 0)} {keys : List K} {augs : List A} {slot yi xi : Nat}
    (h1 : (do (← (⟨keys, ks.map T.nid, augs⟩ : Inner K A).childId slot).leafIdUnchecked : Res Nat) = .ok yi)
    (h2 : (do (← (⟨keys, ks.map T.nid, augs⟩ : Inner K A).childId (slot + 1)).leafIdUnchecked : Res Nat)
      = .ok xi) :
    ∃ a yd xd b, ks.flatMap T.leaves = a ++ (yi, yd) :: (xi, xd) :: b := by
  have key : ∀ {n i : Nat}, (do (← (⟨keys, ks.map T.nid, augs⟩ : Inner K A).childId n).leafIdUnchecked : Res Nat) = .ok i →
      ∃ y : T K V A 0, ks[n]? = some y ∧ GLeaf.id y = i := by
    intro n i h
    obtain ⟨c, e1, e2⟩ := bind_ok h
    unfold Inner.childId readAt at e1
    split at e1
    · next e =>
      cases e1
      simp only [List.getElem?_map, Option.map_eq_some_iff] at e
      obtain ⟨y, hy, rfl⟩ := e
      exact ⟨y, hy, Except.ok.inj e2⟩
    · cases e1
  obtain ⟨y, hy, rfl⟩ := key h1
  obtain ⟨x, hx, rfl⟩ := key h2
  obtain ⟨l1, e1⟩ := List.getElem?_eq_some_iff.1 hy
  obtain ⟨l2, e2⟩ := List.getElem?_eq_some_iff.1 hx
  have : ks = ks.take slot ++ y :: x :: ks.drop (slot + 2) := by
    rw [← e1, ← e2, List.getElem_cons_drop, List.getElem_cons_drop, List.take_append_drop]
  refine ⟨(ks.take slot).flatMap T.leaves, GLeaf.data y, GLeaf.data x,
    (ks.drop (slot + 2)).flatMap T.leaves, ?_⟩
  conv_lhs => rw [this]
  simp [T.leaves]

theorem mergeLeafT_merging {pid : Nat} {s : Store K V A} {keys : List K} {ks : List (T K V A 0)}
    {augs : List A} {LA LB : List (Nat × List (K × V))}
    (hseg : Seg s.leaves none (LA ++ ks.flatMap T.leaves ++ LB) none)
    (hnd : ((LA ++ ks.flatMap T.leaves ++ LB).map (·.1)).Nodup)
    (hpid : s.inners[pid]? = some (some ⟨keys, ks.map T.nid, augs⟩)) (slot idx : Nat) :
    (mergeLeafNodeLeftT pid s ⟨keys, ks.map T.nid, augs⟩ slot idx).All
      (fun _ m => Merging s m (LA ++ ks.flatMap T.leaves ++ LB)) ∧
    (mergeLeafNodeWithRightT pid s ⟨keys, ks.map T.nid, augs⟩ slot idx).All
      (fun _ m => Merging s m (LA ++ ks.flatMap T.leaves ++ LB)) := by
  have hself : s.inners.set pid (some ⟨keys, ks.map T.nid, augs⟩) = s.inners := set_same hpid
  have key : ∀ {yi xi : Nat} {right left : Leaf K V} {s1 : Store K V A},
      (do (← (⟨keys, ks.map T.nid, augs⟩ : Inner K A).childId slot).leafIdUnchecked : Res Nat) = .ok yi →
      (do (← (⟨keys, ks.map T.nid, augs⟩ : Inner K A).childId (slot + 1)).leafIdUnchecked : Res Nat)
        = .ok xi → s.takeLeaf xi = .ok (right, s1) → s1.getLeaf yi = .ok left →
      ∃ LA' yd xd LB', LA ++ ks.flatMap T.leaves ++ LB = LA' ++ (yi, yd) :: (xi, xd) :: LB' ∧
        right = ⟨xd, some yi, hdId LB' none⟩ ∧ left = ⟨yd, lstId none LA', some xi⟩ ∧
        s1 = { s with leaves := s.leaves.set xi none } := by
    intro yi xi right left s1 h1 h2 h3 h4
    obtain ⟨a, yd, xd, b, e⟩ := neighbours h1 h2
    have eL : LA ++ ks.flatMap T.leaves ++ LB = (LA ++ a) ++ (yi, yd) :: (xi, xd) :: (b ++ LB) := by
      rw [e]; simp
    refine ⟨LA ++ a, yd, xd, b ++ LB, eL, ?_⟩
    rw [eL] at hseg hnd
    obtain ⟨-, g1, g2, -⟩ := Seg.append.1 hseg
    simp only [lstId_concat, hdId_cons] at g1 g2
    have hne : yi ≠ xi := by
      simp only [List.map_append, List.map_cons, List.nodup_append, List.nodup_cons, List.mem_cons,
        not_or] at hnd
      exact hnd.2.1.1.1
    simp only [Store.takeLeaf, g2] at h3
    obtain ⟨rfl, rfl⟩ := Prod.mk.inj (Except.ok.inj h3)
    refine ⟨rfl, ?_, rfl⟩
    simp only [Store.getLeaf] at h4
    rw [List.getElem?_set_ne (Ne.symm hne), g1] at h4
    exact (Except.ok.inj h4).symm
  constructor
  · refine Traced.all_lift_bind fun yi h1 => Traced.all_lift_bind fun xi h2 =>
      Traced.all_lift_bind fun q h3 => Traced.all_lift_bind fun left h4 =>
      Traced.all_lift_bind fun q2 h5 => Traced.all_call_bind ?_ <|
      Traced.all_lift_bind fun _ _ => Traced.all_lift_bind fun _ _ => Traced.all_lift_bind fun _ _ =>
      Traced.all_pure
    obtain ⟨right, s1⟩ := q
    obtain ⟨kv, left'⟩ := q2
    obtain ⟨LA', yd, xd, LB', e1, rfl, rfl, rfl⟩ := key h1 h2 h3 h4
    obtain ⟨kv', e2, h5⟩ := bind_ok h5
    obtain ⟨l1, e3, h5⟩ := bind_ok h5
    obtain ⟨l2, e4, h5⟩ := bind_ok h5
    have h5 := (Prod.mk.inj (Except.ok.inj h5)).2
    rw [extend_data e3] at e4
    rw [extend_data e4] at h5
    subst h5
    refine ⟨hself, LA', yi, yd, xi, xd, LB', _, e1, rfl, ?_⟩
    have : idx < xd.length := by
      unfold readAt at e2
      split at e2
      · next e => exact (List.getElem?_eq_some_iff.1 e).1
      · cases e2
    simp only [List.length_append, List.length_take, List.length_drop]
    omega
  · refine Traced.all_lift_bind fun yi h1 => Traced.all_lift_bind fun xi h2 =>
      Traced.all_lift_bind fun q h3 => Traced.all_lift_bind fun left h4 =>
      Traced.all_lift_bind fun q2 h5 => Traced.all_lift_bind fun left2 h6 => Traced.all_call_bind ?_ <|
      Traced.all_lift_bind fun _ _ => Traced.all_lift_bind fun _ _ => Traced.all_lift_bind fun _ _ =>
      Traced.all_pure
    obtain ⟨right, s1⟩ := q
    obtain ⟨kv, left'⟩ := q2
    obtain ⟨LA', yd, xd, LB', e1, rfl, rfl, rfl⟩ := key h1 h2 h3 h4
    obtain ⟨⟨kv', d'⟩, e2, h5⟩ := bind_ok h5
    have h5 := (Prod.mk.inj (Except.ok.inj h5)).2
    subst h5
    obtain ⟨l1, e3, h6⟩ := bind_ok h6
    have h6 := Except.ok.inj h6
    rw [extend_data e3] at h6
    subst h6
    refine ⟨hself, LA', yi, yd, xi, xd, LB', _, e1, rfl, ?_⟩
    obtain ⟨-, -, e4, -⟩ := sliceRemove_eq e2
    simp only at e4
    simp only [List.length_append]
    omega

theorem handleLeafT_merging {pid : Nat} {s : Store K V A} {st : Statistic} {keys : List K}
    {ks : List (T K V A 0)} {augs : List A} {LA LB : List (Nat × List (K × V))}
    (hseg : Seg s.leaves none (LA ++ ks.flatMap T.leaves ++ LB) none)
    (hnd : ((LA ++ ks.flatMap T.leaves ++ LB).map (·.1)).Nodup)
    (hpid : s.inners[pid]? = some (some ⟨keys, ks.map T.nid, augs⟩)) (i idx : Nat) :
    (handleLeafUnderSizeT pid s st ⟨keys, ks.map T.nid, augs⟩ i idx).All
      (fun _ m => m.2.leafMerges ≠ st.leafMerges →
        Merging s m.1 (LA ++ ks.flatMap T.leaves ++ LB)) := by
  refine Traced.all_lift_bind fun _ _ => Traced.all_lift_bind fun _ _ =>
    Traced.all_lift_bind fun fx _ => ?_
  cases fx with
  | rotateRight =>
    refine Traced.all_bind (Traced.all_mapMem ?_) fun _ _ => Traced.all_pure
    exact fun c m _ h => absurd rfl h
  | rotateLeft =>
    refine Traced.all_bind (Traced.all_mapMem ?_) fun _ _ => Traced.all_pure
    exact fun c m _ h => absurd rfl h
  | mergeLeft =>
    exact Traced.all_bind (Traced.all_mapMem (Traced.all_mono (fun _ _ h _ => h)
      (mergeLeafT_merging hseg hnd hpid _ _).1)) fun _ _ => Traced.all_pure
  | mergeRight =>
    exact Traced.all_bind (Traced.all_mapMem (Traced.all_mono (fun _ _ h _ => h)
      (mergeLeafT_merging hseg hnd hpid _ _).2)) fun _ _ => Traced.all_pure

theorem handleInner_below {s s' : Store K V A} {st st' : Statistic} {n n' : Inner K A} {i : Nat}
    {d : K × V} {r : DeleteResult K V} (h : handleInnerUnderSize s st n i d = .ok (r, s', st', n')) :
    ∀ i, r ≠ .leafUnderSize i := by
  unfold handleInnerUnderSize at h
  obtain ⟨rR, -, h⟩ := bind_ok h
  cases rR with
  | some q =>
    have h := (Prod.mk.inj (Except.ok.inj h)).1
    rw [← h]; simp
  | none =>
    obtain ⟨rL, -, h⟩ := bind_ok h
    cases rL with
    | some q =>
      have h := (Prod.mk.inj (Except.ok.inj h)).1
      rw [← h]; simp
    | none =>
      obtain ⟨⟨ok, q⟩, -, h⟩ := bind_ok h
      cases ok with
      | true =>
        have h := (Prod.mk.inj (Except.ok.inj h)).1
        rw [← h]; simp
      | false =>
        have h := (Prod.mk.inj (Except.ok.inj h)).1
        rw [← h]; simp

theorem handleLeaf_below {s s' : Store K V A} {st st' : Statistic} {n n' : Inner K A} {i j : Nat}
    {r : DeleteResult K V} (h : handleLeafUnderSize s st n i j = .ok (r, s', st', n')) :
    ∀ i, r ≠ .leafUnderSize i := by
  unfold handleLeafUnderSize at h
  obtain ⟨_, -, h⟩ := bind_ok h
  obtain ⟨_, -, h⟩ := bind_ok h
  obtain ⟨fx, -, h⟩ := bind_ok h
  cases fx with
  | rotateRight =>
    obtain ⟨q, -, h⟩ := bind_ok h
    have h := (Prod.mk.inj (Except.ok.inj h)).1
    rw [← h]; simp
  | rotateLeft =>
    obtain ⟨q, -, h⟩ := bind_ok h
    have h := (Prod.mk.inj (Except.ok.inj h)).1
    rw [← h]; simp
  | mergeLeft =>
    obtain ⟨⟨r', q⟩, e, h⟩ := bind_ok h
    have h := (Prod.mk.inj (Except.ok.inj h)).1
    subst h
    obtain ⟨_, -, e⟩ := bind_ok e
    obtain ⟨_, -, e⟩ := bind_ok e
    obtain ⟨_, -, e⟩ := bind_ok e
    obtain ⟨_, -, e⟩ := bind_ok e
    obtain ⟨_, -, e⟩ := bind_ok e
    obtain ⟨_, -, e⟩ := bind_ok e
    obtain ⟨_, -, e⟩ := bind_ok e
    obtain ⟨_, -, e⟩ := bind_ok e
    obtain ⟨_, -, e⟩ := bind_ok e
    obtain ⟨⟨ok, _⟩, -, e⟩ := bind_ok e
    have e := (Prod.mk.inj (Except.ok.inj e)).1
    rw [← e]
    cases ok <;> simp
  | mergeRight =>
    obtain ⟨⟨r', q⟩, e, h⟩ := bind_ok h
    have h := (Prod.mk.inj (Except.ok.inj h)).1
    subst h
    obtain ⟨_, -, e⟩ := bind_ok e
    obtain ⟨_, -, e⟩ := bind_ok e
    obtain ⟨_, -, e⟩ := bind_ok e
    obtain ⟨_, -, e⟩ := bind_ok e
    obtain ⟨_, -, e⟩ := bind_ok e
    obtain ⟨_, -, e⟩ := bind_ok e
    obtain ⟨_, -, e⟩ := bind_ok e
    obtain ⟨_, -, e⟩ := bind_ok e
    obtain ⟨_, -, e⟩ := bind_ok e
    obtain ⟨_, -, e⟩ := bind_ok e
    obtain ⟨⟨ok, _⟩, -, e⟩ := bind_ok e
    have e := (Prod.mk.inj (Except.ok.inj e)).1
    rw [← e]
    cases ok <;> simp

omit [Augmentation K V A] in
theorem Ctx.stack_inner {h H : Nat} (c : Ctx K V A h H) (i : Nat) :
    ∀ e ∈ c.stack (.inner i), ∃ j, e.2.2 = .inner j := by
  induction c generalizing i with
  | nil => simp [Ctx.stack]
  | cons f c ih =>
    intro e he
    simp only [Ctx.stack, List.mem_cons] at he
    rcases he with rfl | he
    · exact ⟨i, rfl⟩
    · exact ih f.id e he

/-- Above the leaves `from_leaf` is not called. -/
theorem removeAscendT_inner (s : Store K V A) (st : Statistic) (stack : List StackEntry)
    (r : DeleteResult K V) (hr : ∀ i, r ≠ .leafUnderSize i)
    (hs : ∀ e ∈ stack, ∃ i, e.2.2 = .inner i) :
    (removeAscendT s st stack r).All (fun c _ => ¬ c.isFromLeaf) := by
  induction stack generalizing s st r with
  | nil => exact Traced.all_pure
  | cons e stack ih =>
    obtain ⟨id, idx, c⟩ := e
    have hs' : ∀ e ∈ stack, ∃ i, e.2.2 = .inner i := fun e he => hs e (by simp [he])
    cases r with
    | done kv =>
      obtain ⟨i, hi⟩ := hs _ (List.mem_cons_self)
      simp only at hi
      subst hi
      refine Traced.all_bind ?_ fun _ _ =>
        Traced.all_lift_bind fun _ _ => Traced.all_lift_bind fun _ _ => ih _ _ _ (by simp) hs'
      exact Traced.all_lift_bind fun _ _ => Traced.all_call_bind (by simp [Callback.ofInner, Callback.isFromLeaf])
        Traced.all_pure
    | innerUnderSize kv =>
      refine Traced.all_lift_bind fun _ _ =>
        Traced.all_bind (Traced.all_mono (by intro c m h h'; cases c <;> simp_all [Callback.isFromInner, Callback.isFromLeaf])
          (handleInnerUnderSizeT_kind _ _ _ _ _ _)) fun q hq => ih _ _ _ ?_ hs'
      rw [handleInnerUnderSizeT_result] at hq
      exact handleInner_below (r := q.1) (s' := q.2.1) (st' := q.2.2.1) (n' := q.2.2.2) hq
    | leafUnderSize kv => exact absurd rfl (hr kv)


theorem removeByRefT_merging {μ : Nat} {t : Tree K V A} {H : Nat} {g : T K V A H} (w : WF0 μ t g)
    {c : Ctx K V A 0 H} {i : Nat} {d : List (K × V)} (hp : c.plug ⟨i, d⟩ = g) (n : Nat) :
    (t.removeByRefT ⟨c.stack (.leaf i), i, n⟩).All (fun cb m => cb.isFromLeaf →
      m.st.leafMerges ≠ t.st.leafMerges → m.root = t.root →
      ∃ s, Merging t.store s g.leaves ∧ m = { t with store := s, st := m.st }) := by
  have hleaves : g.leaves = c.lvL ++ (i, d) :: c.lvR := by
    rw [← hp, Ctx.leaves_plug]; simp [T.leaves]
  have hseg := w.seg
  have hnd := w.lnodup
  have hget' : t.store.leaves[i]? = some (some ⟨d, lstId none c.lvL, hdId c.lvR none⟩) := by
    have := hseg
    rw [hleaves] at this
    exact this.get
  have hget : t.store.getLeaf i = .ok ⟨d, lstId none c.lvL, hdId c.lvR none⟩ := by
    simp [Store.getLeaf, hget']
  have hroot : t.root = (c.plug ⟨i, d⟩).nid := by rw [w.root, hp]
  have hm : IMem t.store.inners (c.plug ⟨i, d⟩).nodes := by rw [hp]; exact w.imem
  refine Traced.all_lift_bind fun leaf e1 => Traced.all_lift_bind fun q e2 => ?_
  rw [hget] at e1
  cases e1
  obtain ⟨l1, dr⟩ := q
  cases c with
  | nil =>
    refine Traced.all_bind (Traced.all_mapMem ?_) fun q hq => ?_
    · exact Traced.all_pure
    · rw [Traced.result_mapMem, removeAscendT_result] at hq
      have hq := Except.ok.inj hq
      refine Traced.all_lift_bind fun q2 _ =>
        Traced.all_bind (newAugmentationT_all ?_ ?_) fun _ _ => Traced.all_guard fun _ => Traced.all_pure
      · intro _ _ h
        exact absurd (by rw [← hq]) h
      · intro _ _ h
        exact absurd (by rw [← hq]) h
  | cons f c =>
    have hri : ∃ j, t.root = .inner j := by
      rw [hroot]
      have key : ∀ {h H : Nat} (c : Ctx K V A (h + 1) H) (x : T K V A (h + 1)), ∃ j, (c.plug x).nid = .inner j := by
        intro h H c
        generalize hh : h + 1 = h1 at c
        induction c generalizing h with
        | nil => subst hh; exact fun x => ⟨_, rfl⟩
        | cons f c ih => exact fun x => ih (h := _) rfl (f.fill x)
      exact key c (f.fill ⟨i, d⟩)
    have hfi : t.store.inners[f.id]? = some (some (f.inner (.leaf i))) := by
      refine hm (f.id, f.inner (.leaf i)) ((Ctx.nodes_plug (c := Ctx.cons f c)).symm.subset ?_)
      simp [Ctx.nodes, Frame.nodes, T.nid]
    have hgi : t.store.getInner f.id = .ok (f.inner (.leaf i)) := by simp [Store.getInner, hfi]
    refine Traced.all_bind (Traced.all_mapMem ?_) fun q hq => ?_
    · cases dr with
      | done kv =>
        refine Traced.all_bind (newAugmentationT_all ?_ ?_) fun _ _ =>
          Traced.all_lift_bind fun _ _ => Traced.all_lift_bind fun _ _ =>
          Traced.all_mono (fun c m h h' => absurd h' h) (removeAscendT_inner _ _ _ _ (by simp) (Ctx.stack_inner c f.id))
        · exact fun _ _ h => absurd rfl h
        · exact fun _ _ h => absurd rfl h
      | underSize idx =>
        have hl1 : l1 = ⟨d, lstId none (Ctx.cons f c).lvL, hdId (Ctx.cons f c).lvR none⟩ := by
          unfold Leaf.tryDeleteAt at e2
          split at e2
          · obtain ⟨_, -, e2⟩ := bind_ok e2
            cases e2
          · exact ((Prod.mk.inj (Except.ok.inj e2)).1).symm
        have hset : t.store.setLeaf i l1 = t.store := by
          rw [hl1]
          simp only [Store.setLeaf, set_same hget']
        simp only [hset]
        refine Traced.all_lift_bind fun nd hnd' => ?_
        rw [hgi] at hnd'
        cases hnd'
        let ks : List (T K V A 0) := f.kidsL ++ ((⟨i, d⟩ : GLeaf K V) : T K V A 0) :: f.kidsR
        have hinn : f.inner (.leaf i) = ⟨f.keysL ++ f.keysR, ks.map T.nid, f.augsL ++ f.aug :: f.augsR⟩ := by
          simp [Frame.inner, ks, T.nid]
        have hks : g.leaves = c.lvL ++ ks.flatMap T.leaves ++ c.lvR := by
          rw [hleaves]
          simp [Ctx.lvL, Ctx.lvR, Frame.lvL, Frame.lvR, ks, T.leaves]
        rw [hks] at hseg hnd
        rw [hinn] at hfi ⊢
        refine Traced.all_bind (Traced.all_mono (fun cb m h h1 h2 h3 => ?_)
          (handleLeafT_merging hseg hnd hfi _ _)) fun q hq => ?_
        · exact ⟨m.1, hks ▸ h h2, rfl⟩
        · rw [handleLeafUnderSizeT_result] at hq
          exact Traced.all_mono (fun c m h h' => absurd h' h) (removeAscendT_inner _ _ _ _
            (handleLeaf_below (r := q.1) (s' := q.2.1) (st' := q.2.2.1) (n' := q.2.2.2) hq)
            (Ctx.stack_inner c f.id))
    · refine Traced.all_lift_bind fun q2 _ => ?_
      obtain ⟨kv, s2, root⟩ := q2
      refine Traced.all_bind ?_ fun _ _ => Traced.all_guard fun _ => Traced.all_pure
      cases root with
      | inner j =>
        exact Traced.all_lift_bind fun _ _ => Traced.all_call_bind (fun h => by cases h) Traced.all_pure
      | leaf j =>
        refine Traced.all_lift_bind fun _ _ => Traced.all_call_bind (fun _ _ h => ?_) Traced.all_pure
        obtain ⟨j', hj⟩ := hri
        rw [hj] at h
        cases h

/-- What dropping the map does at every crash point of a removal from the first write on. -/
theorem removeT_exact {μ : Nat} (hμ1 : 1 ≤ μ) {t : Tree K V A} {l : List (K × V)} (h : UInvM μ t l)
    (o : Answers K) : (t.removeT o).All (fun cb m => cb ≠ .compare → ∃ j, m.lastLeaf = .ok j ∧
      m.drop = .error (open Classical in if (∃ l, m.store.leaves[j]? = some (some l)) then .panic else .ub)) := by
  have hS := removeT_short hμ1 h o
  have hM : (t.removeT o).All (fun cb m => cb ≠ .compare → cb.isFromLeaf →
      m.st.leafMerges ≠ t.st.leafMerges → m.root = t.root → ∃ j, m.lastLeaf = .ok j ∧
      m.drop = .error (open Classical in if (∃ l, m.store.leaves[j]? = some (some l)) then .panic else .ub)) := by
    obtain ⟨H, g, w, hl⟩ := h.ghost
    obtain ⟨c, x, hp, hlen, hdesc⟩ := descend_stackU w (w.depth h.lt) o
    refine Traced.all_call_bind (fun h => absurd rfl h) <| Traced.all_lift_bind fun r hr => ?_
    unfold Tree.keyToRefU at hr
    rw [hdesc] at hr
    simp only [ok_bind] at hr
    cases r with
    | none => exact Traced.all_pure
    | some e =>
      have he : ∃ n, e = ⟨c.stack (.leaf x.id), x.id, n⟩ := by
        obtain ⟨lf, -, hr⟩ := bind_ok hr
        obtain ⟨sl, -, hr⟩ := bind_ok hr
        cases sl with
        | found n => exact ⟨n, (Option.some.inj (Except.ok.inj hr)).symm⟩
        | vacant n => cases hr
      obtain ⟨n, rfl⟩ := he
      refine Traced.all_bind (Traced.all_mono (fun cb m h _ h1 h2 h3 => ?_)
        (removeByRefT_merging w hp n)) fun _ _ => Traced.all_pure
      obtain ⟨s, h4, h5⟩ := h h1 h2 h3
      obtain ⟨j, h6, h7⟩ := h4.drop w
      rw [h5]
      exact ⟨j, h6, h7⟩
  intro cb m hm hc
  by_cases hx : cb.isFromLeaf → m.st.leafMerges = t.st.leafMerges ∨ m.root ≠ t.root
  · obtain ⟨H, n, hs, hn⟩ := hS cb m hm hc hx
    obtain ⟨j, l', h3, h4⟩ := hs.down.last m.store.fuel hs.fuel
    refine ⟨j, ?_, ?_⟩
    · unfold Tree.lastLeaf descendLeaf
      rw [h4]; rfl
    · rw [hs.drop (by omega), if_pos ⟨l', h3⟩]
  · push Not at hx
    exact hM cb m hm hc hx.1 hx.2.1 hx.2.2

end
end Bpt
