import Verif.Proofs.DropPanic
import Verif.Props.CloneCrash

/-!
# C59: destructors that panic

`bomb` says which destructors of keys, values and augmentations panic. The destructors run are listed in order;
what "aborted" means is in `Model/DropPanic`.
-/

namespace Bpt
namespace Raw
variable {K V A : Type}

/-- Everything that a map owns: its items `l`, the keys and augmentations of its inner nodes, and the
augmentation of the root. -/
def owned (u : Tree K V A) (l : List (K × V)) : List (Destroyed K V A) :=
  l.flatMap (fun kv => [.key kv.1, .value kv.2]) ++ u.store.inners.flatMap nodeOwns ++ [.aug u.rootAug]

/-- What an owning iterator owns if the items `l` are left in it. -/
def ownedByIter (it : IntoIter K V A) (l : List (K × V)) : List (Destroyed K V A) :=
  l.flatMap (fun kv => [.key kv.1, .value kv.2]) ++ it.store.inners.flatMap nodeOwns

theorem itemsLog_sublist (bomb : Destroyed K V A → Bool) (l : List (K × V)) :
    itemsLog bomb l <+: l.flatMap (fun kv => [.key kv.1, .value kv.2]) := by
  obtain ⟨r, hr⟩ := upTo_prefix (itemBomb bomb) l
  refine ⟨r.flatMap (fun kv => [.key kv.1, .value kv.2]), ?_⟩
  conv_rhs => rw [← hr]
  rw [List.flatMap_append]
  rfl

theorem nodesLog_sublist (bomb : Destroyed K V A → Bool) (os : List (Option (InnerS K A))) :
    (nodesLog bomb os).Sublist (os.flatMap nodeOwns) := by
  induction os with
  | nil => exact List.Sublist.refl _
  | cons o os ih => exact ((upTo_prefix bomb _).sublist).append ih

theorem itemsLog_none {bomb : Destroyed K V A → Bool} {l : List (K × V)} {l' : List (Destroyed K V A)}
    (h : ∀ x ∈ l.flatMap (fun kv => [.key kv.1, .value kv.2]) ++ l', bomb x = false) :
    itemsLog bomb l = l.flatMap (fun kv => [.key kv.1, .value kv.2]) := by
  unfold itemsLog
  rw [upTo_of_none]
  rw [List.any_eq_false]
  intro kv hkv
  have h1 := h (.key kv.1) (List.mem_append_left _ (List.mem_flatMap.2 ⟨kv, hkv, by simp⟩))
  have h2 := h (.value kv.2) (List.mem_append_left _ (List.mem_flatMap.2 ⟨kv, hkv, by simp⟩))
  unfold itemBomb
  rw [h1, h2]
  decide

theorem nodesLog_none {bomb : Destroyed K V A → Bool} {os : List (Option (InnerS K A))}
    (h : ∀ x ∈ os.flatMap nodeOwns, bomb x = false) : nodesLog bomb os = os.flatMap nodeOwns := by
  induction os with
  | nil => rfl
  | cons o os ih =>
    rw [List.flatMap_cons] at h ⊢
    rw [nodesLog_cons, ih (fun x hx => h x (List.mem_append_right _ hx)), upTo_of_none]
    rw [List.any_eq_false]
    intro x hx
    rw [h x (List.mem_append_left _ hx)]
    decide

theorem endOf_none {bomb : Destroyed K V A → Bool} {l : List (Destroyed K V A)}
    (h : ∀ x ∈ l, bomb x = false) : upToNth bomb 2 l = l ∧ endOf bomb l = .done := by
  have hc : l.countP bomb = 0 := by
    rw [List.countP_eq_zero]
    intro x hx
    rw [h x hx]
    decide
  refine ⟨upToNth_of_lt bomb (by omega), ?_⟩
  rw [endOf_eq, hc]
  rfl

variable [LinearOrder K] [Augmentation K V A]

/-- The states that an owning iterator goes through, and its plain `drop`. -/
theorem into_drop_ready {u : Tree K V A} (h : Reachable u) {l : List (K × V)} (hl : Shows u l) (ds : List Dir) :
    ∃ it it' it'', u.intoIter = .ok it ∧ it.runCalls ds = .ok ((Spec.pulls l ds).1, it') ∧
      it'.drop = .ok ((Spec.pulls l ds).2, it'') ∧ it'.store.inners = u.store.inners ∧
      ∀ n, some n ∈ it'.store.inners → n.drop = .ok (n.ks.present, n.as.present) := by
  obtain ⟨it, it', it'', h1, h2, h3, _, _⟩ := C43_into_iter h hl ds
  have hu : it.store.inners = u.store.inners := by
    unfold Tree.intoIter at h1
    cases e1 : u.firstLeaf with
    | error _ => rw [e1] at h1; cases h1
    | ok a =>
      rw [e1, ok_bind] at h1
      cases e2 : u.lastLeaf with
      | error _ => rw [e2] at h1; cases h1
      | ok b =>
        rw [e2, ok_bind] at h1
        cases e3 : u.store.getLeaf b with
        | error _ => rw [e3] at h1; cases h1
        | ok b => rw [e3, ok_bind] at h1; cases h1; rfl
  have hs : it'.store.inners = u.store.inners := (runCalls_inners ds h2).trans hu
  refine ⟨it, it', it'', h1, h2, h3, hs, ?_⟩
  intro n hn
  rw [hs] at hn
  obtain ⟨t, _, ht⟩ := reachable_rep h
  obtain ⟨i, hi', he⟩ := List.mem_iff_getElem.1 hn
  have := forall₂_get ht.store.inners i
  rw [List.getElem?_eq_getElem hi', he] at this
  cases hx : t.store.inners[i]? with
  | none => rw [hx] at this; cases this
  | some o =>
    rw [hx] at this
    cases this with
    | some hr => cases hr with
      | some hr =>
        rw [InnerS.C36_inner_drop_partial hr.holds, hr.holds.hks, hr.holds.has, present_pad, present_pad]

/-- C59: dropping a map whatever destructors panic. There is no undefined behaviour. The destructors that run are
those of the items in key order, up to and including the first item with a panicking one; then those of the inner
nodes, in each of them up to the first that panics; then that of the root augmentation; the process aborts at the
second panic. -/
theorem C59_drop_partial {u : Tree K V A} (h : Reachable u) {l : List (K × V)} (hl : Shows u l)
    (bomb : Destroyed K V A → Bool) :
    u.dropP bomb =
      .ok (upToNth bomb 2 (itemsLog bomb l ++ nodesLog bomb u.store.inners ++ [.aug u.rootAug]),
        endOf bomb (itemsLog bomb l ++ nodesLog bomb u.store.inners ++ [.aug u.rootAug])) := by
  obtain ⟨it, it', it'', h1, h2, h3, h4, h5⟩ := into_drop_ready h hl []
  cases h2
  rw [← h4]
  exact treeDropP_ok bomb h1 h3 h5

/-- C59: nothing is destroyed twice, and nothing that the map does not own: the destructors run are a sublist of
everything owned. If no destructor panics they are all of it. -/
theorem C59_once_partial {u : Tree K V A} (h : Reachable u) {l : List (K × V)} (hl : Shows u l)
    (bomb : Destroyed K V A → Bool) :
    (∃ log e, u.dropP bomb = .ok (log, e) ∧ log.Sublist (owned u l)) ∧
    ((∀ x ∈ owned u l, bomb x = false) → u.dropP bomb = .ok (owned u l, .done)) := by
  rw [C59_drop_partial h hl bomb]
  refine ⟨⟨_, _, rfl, (upToNth_prefix bomb 2 _).sublist.trans ?_⟩, ?_⟩
  · exact ((itemsLog_sublist bomb l).sublist.append (nodesLog_sublist bomb _)).append (List.Sublist.refl _)
  · intro hb
    unfold owned at hb ⊢
    rw [List.append_assoc] at hb
    rw [itemsLog_none hb, nodesLog_none (fun x hx => hb x
      (List.mem_append_right _ (List.mem_append_left _ hx)))]
    rw [← List.append_assoc] at hb
    obtain ⟨h1, h2⟩ := endOf_none hb
    rw [h1, h2]

/-- C59: the items destroyed by dropping a map are those before the first one with a panicking destructor, and
that one; the others are leaked. -/
theorem C59_items_partial {u : Tree K V A} (h : Reachable u) {l : List (K × V)} (hl : Shows u l)
    (bomb : Destroyed K V A → Bool) :
    ∃ log e, u.dropP bomb = .ok (log, e) ∧ Cloned.vals log = (upTo (itemBomb bomb) l).map (·.2) := by
  obtain ⟨it, it', it'', h1, h2, h3, h4, h5⟩ := into_drop_ready h hl []
  cases h2
  obtain ⟨_, _, _, h6⟩ := dropAuxP_ok bomb _ h3
  refine ⟨_, _, C59_drop_partial h hl bomb, ?_⟩
  have hv : Cloned.vals (itemsLog bomb l) = (upTo (itemBomb bomb) l).map (·.2) := by
    unfold itemsLog
    rw [Cloned.vals_flatMap, List.map_eq_flatMap]
    rfl
  have hr : ∀ l' : List (Destroyed K V A), l' <+: nodesLog bomb u.store.inners ++ [.aug u.rootAug] →
      Cloned.vals l' = [] := by
    intro l' hp
    refine List.filterMap_eq_nil_iff.2 ?_
    intro x hx
    have hx := hp.subset hx
    rcases List.mem_append.1 hx with hx | hx
    · have hx := (nodesLog_sublist bomb _).subset hx
      obtain ⟨o, _, ho⟩ := List.mem_flatMap.1 hx
      cases o with
      | none => cases ho
      | some n =>
        rcases List.mem_append.1 ho with ho | ho
        · obtain ⟨_, _, rfl⟩ := List.mem_map.1 ho; rfl
        · obtain ⟨_, _, rfl⟩ := List.mem_map.1 ho; rfl
    · rw [List.mem_singleton.1 hx]
  rw [List.append_assoc]
  have h6 : upToNth bomb 2 (itemsLog bomb l) = itemsLog bomb l := h6
  by_cases hc : (itemsLog bomb l).countP bomb < 2
  · rw [upToNth_append_lt bomb _ _ _ hc, Cloned.vals_append, hv, hr _ (upToNth_prefix bomb _ _), List.append_nil]
  · rw [upToNth_append_ge bomb _ _ _ (by omega), h6, hv]

/-- C59: the same for an owning iterator that is dropped after any calls. -/
theorem C59_into_iter_partial {u : Tree K V A} (h : Reachable u) {l : List (K × V)} (hl : Shows u l)
    (ds : List Dir) (bomb : Destroyed K V A → Bool) :
    ∃ it it', u.intoIter = .ok it ∧ it.runCalls ds = .ok ((Spec.pulls l ds).1, it') ∧
      it'.dropP bomb =
        .ok (upToNth bomb 2 (itemsLog bomb (Spec.pulls l ds).2 ++ nodesLog bomb u.store.inners),
          endOf bomb (itemsLog bomb (Spec.pulls l ds).2 ++ nodesLog bomb u.store.inners)) ∧
      (∃ log e, it'.dropP bomb = .ok (log, e) ∧ log.Sublist (ownedByIter it' (Spec.pulls l ds).2)) := by
  obtain ⟨it, it', it'', h1, h2, h3, h4, h5⟩ := into_drop_ready h hl ds
  have := intoDropP_ok bomb h3 h5
  refine ⟨it, it', h1, h2, by rw [← h4]; exact this, _, _, this, (upToNth_prefix bomb 2 _).sublist.trans ?_⟩
  exact (itemsLog_sublist bomb _).sublist.append (nodesLog_sublist bomb _)

/-- C59: `clear` leaves an empty map whatever destructors panic, and runs the same destructors as `drop`. -/
theorem C59_clear_partial {u : Tree K V A} (h : Reachable u) (bomb : Destroyed K V A → Bool) :
    ∃ out u', u.clearP bomb = .ok (out, u') ∧ u.dropP bomb = .ok out ∧ Reachable u' ∧ Shows u' [] := by
  obtain ⟨t, hr, ht⟩ := reachable_rep h
  obtain ⟨l, hi⟩ := hr.inv
  have hd := C59_drop_partial h (shows_of_rep ht hi.shows) bomb
  refine ⟨_, Tree.new, ?_, hd, .new, ?_⟩
  · unfold Tree.clearP
    rw [hd]
    rfl
  · obtain ⟨u', h1, h2⟩ := C43_history (A := A) ([] : List (Call K V)) (by simp)
    cases h1
    exact h2

theorem dropPrefix_over {α : Type} {m : Nat} (l : List α) :
    Slots.dropPrefix (Slots.pad m l) (l.length + 1) = .error .ub := by
  unfold Slots.dropPrefix
  rw [List.range_succ, List.mapM_append, Slots.mapM_read _ rfl, ok_bind, List.mapM_cons]
  have : Slots.read (Slots.pad m l) l.length = .error .ub := by
    unfold Slots.read Slots.pad Slots.uninit
    rw [List.getElem?_append_right (by simp), List.length_map, Nat.sub_self]
    cases m - l.length <;> rfl
  rw [this]
  rfl

omit [LinearOrder K] [Augmentation K V A] in
theorem removeSlot_toDrop {n : InnerS K A} {ks : List K} {cs : List NodeId} {as : List A}
    (h : n.Holds ks cs as) {slot : Nat} (hs : slot < ks.length) :
    ∃ n', n.removeSlotWithRightToDrop slot
        = .ok (as[slot + 1]'(by have := h.alen; omega), ks[slot], n') ∧
      n'.drop = .error .ub := by
  have ha := h.alen
  have hc := h.clen
  have hcap := h.cap
  unfold InnerS.removeSlotWithRightToDrop
  rw [h.hks, Slots.remove_pad h.size hs hcap, ok_bind]
  dsimp only
  rw [h.hcs, Slots.remove_pad (by rw [h.size, hc]) (by omega) (by omega), ok_bind]
  dsimp only
  rw [h.has, Slots.remove_pad (by rw [h.size, ha]) (by omega) (by omega), ok_bind]
  refine ⟨_, rfl, ?_⟩
  unfold InnerS.drop
  rw [show n.size = (ks.take slot ++ ks.drop (slot + 1)).length + 1 by
    rw [h.size, List.length_append, List.length_take, List.length_drop]; omega]
  rw [dropPrefix_over]
  rfl

/-- C59, refuted: the destructor of an augmentation that panics inside the removal of a key. When two children of
an inner node are merged, the node gives up a key, a child and an augmentation, and the latter is destroyed before
the node's size is updated. So for every inner node of every reachable map and every slot: if the destructor of
that augmentation panics, the destructor of the node reads a slot whose value was moved away (a double drop). -/
theorem C59_remove_refuted {u : Tree K V A} (h : Reachable u) {i : Nat} {n : InnerS K A}
    (hn : u.store.inners[i]? = some (some n)) {slot : Nat} (hs : slot < n.size) :
    ∃ a k n', n.removeSlotWithRightToDrop slot = .ok (a, k, n') ∧
      n.removeSlotWithRight slot = .ok (decide (minN ≤ n.size - 1), k, { n' with size := n.size - 1 }) ∧
      n'.drop = .error .ub := by
  obtain ⟨t, _, ht⟩ := reachable_rep h
  have := forall₂_get ht.store.inners i
  rw [hn] at this
  cases hx : t.store.inners[i]? with
  | none => rw [hx] at this; cases this
  | some o =>
    rw [hx] at this
    cases this with
    | some hr => cases hr with
      | some hr =>
        rw [hr.holds.size] at hs
        obtain ⟨n', h1, h2⟩ := removeSlot_toDrop hr.holds hs
        refine ⟨_, _, n', h1, ?_, h2⟩
        unfold InnerS.removeSlotWithRightToDrop at h1
        unfold InnerS.removeSlotWithRight
        cases e1 : n.ks.remove n.size slot with
        | error _ => rw [e1] at h1; cases h1
        | ok x =>
          rw [e1, ok_bind] at h1
          dsimp only at h1
          cases e2 : n.cs.remove (n.size + 1) (slot + 1) with
          | error _ => rw [e2] at h1; cases h1
          | ok y =>
            rw [e2, ok_bind] at h1
            cases e3 : n.as.remove (n.size + 1) (slot + 1) with
            | error _ => rw [e3] at h1; cases h1
            | ok z =>
              rw [e3, ok_bind] at h1
              have h1 := Except.ok.inj h1
              simp only [Prod.mk.injEq] at h1
              obtain ⟨_, h4, h5⟩ := h1
              subst h5
              rw [ok_bind]
              dsimp only
              rw [ok_bind, ok_bind, ← h4]
              rfl

/-! ## Instances -/

/-- The destructor of key 10 panics (wherever the key is), and that of the augmentation that counts 20. -/
def demoBomb : Destroyed Nat Nat Count → Bool
  | .key k => k == 10
  | .value _ => false
  | .aug a => a.count == 20

-- the map of `Props/Raw`, 40 items on two leaves of 20: the panic of the destructor of key 10 stops the destruction
-- of the items after 11 of them; then the destructors of the one separator key and of the first augmentation run,
-- and the panic of the latter aborts
example : (demoRaw.dropP demoBomb).toOption.map (fun r => ((Cloned.vals r.1).length, r.1.length, r.2))
    = some (11, 24, .aborted) := by decide +kernel

-- if only the destructor of key 10 panics, everything else but the other 29 items is destroyed
example : (demoRaw.dropP (fun x => match x with | .key k => k == 10 | _ => false)).toOption.map
    (fun r => ((Cloned.vals r.1).length, r.1.length, r.2)) = some (11, 26, .unwound) := by decide +kernel

-- the inner node of that map, in the middle of the removal of its key
example : (demoRaw.store.inners[0]?.join.bind (fun n => (n.removeSlotWithRightToDrop 0).toOption)).map
    (fun r => (r.1.count, r.2.1, r.2.2.drop.toOption)) = some (20, 45, none) := by decide +kernel

example := C59_drop_partial demoRaw_reach.1 demoRaw_reach.2 demoBomb
example := C59_once_partial demoRaw_reach.1 demoRaw_reach.2 demoBomb
example := C59_items_partial demoRaw_reach.1 demoRaw_reach.2 demoBomb
example := C59_into_iter_partial demoRaw_reach.1 demoRaw_reach.2 [.front, .back, .back] demoBomb
example := C59_clear_partial demoRaw_reach.1 demoBomb
example (n) (h : demoRaw.store.inners[0]? = some (some n)) (hs : 0 < n.size) :=
  C59_remove_refuted demoRaw_reach.1 h hs

end Raw
end Bpt
