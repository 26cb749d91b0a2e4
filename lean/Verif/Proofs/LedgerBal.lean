import Verif.Proofs.Ledger
import Verif.Proofs.CrashArgs

/-!
# Balances
-/

namespace Bpt
variable {K V A : Type}

/-- Total weight of a list. -/
def wsum {α : Type} (f : α → Int) : List α → Int
  | [] => 0
  | x :: l => f x + wsum f l

section
variable {α β : Type} (f : α → Int)

@[simp] theorem wsum_nil : wsum f [] = 0 := rfl
@[simp] theorem wsum_cons (x : α) (l : List α) : wsum f (x :: l) = f x + wsum f l := rfl

@[simp] theorem wsum_append (l l' : List α) : wsum f (l ++ l') = wsum f l + wsum f l' := by
  induction l with
  | nil => simp
  | cons x l ih => simp only [List.cons_append, wsum_cons, ih]; omega

@[simp] theorem wsum_map (g : β → α) (l : List β) : wsum f (l.map g) = wsum (fun x => f (g x)) l := by
  induction l with
  | nil => rfl
  | cons x l ih => simp only [List.map_cons, wsum_cons, ih]

theorem wsum_flatMap (g : β → List α) (l : List β) :
    wsum f (l.flatMap g) = wsum (fun x => wsum f (g x)) l := by
  induction l with
  | nil => rfl
  | cons x l ih => simp only [List.flatMap_cons, wsum_append, wsum_cons, ih]

theorem wsum_neg (l : List α) : wsum (fun x => - f x) l = - wsum f l := by
  induction l with
  | nil => rfl
  | cons x l ih => simp only [wsum_cons, ih]; omega

theorem wsum_zero (l : List α) : wsum (fun _ => (0 : Int)) l = 0 := by
  induction l with
  | nil => rfl
  | cons x l ih => simp only [wsum_cons, ih]; omega

theorem wsum_perm {l l' : List α} (h : l.Perm l') : wsum f l = wsum f l' := by
  induction h with
  | nil => rfl
  | cons x _ ih => simp only [wsum_cons, ih]
  | swap x y l => simp only [wsum_cons]; omega
  | trans _ _ ih1 ih2 => exact ih1.trans ih2

theorem wsum_take_drop (l : List α) (i : Nat) : wsum f (l.take i) + wsum f (l.drop i) = wsum f l := by
  rw [← wsum_append, List.take_append_drop]

theorem wsum_drop {l : List α} {i : Nat} {x : α} (h : l[i]? = some x) :
    wsum f (l.drop i) = f x + wsum f (l.drop (i + 1)) := by
  obtain ⟨hi, rfl⟩ := List.getElem?_eq_some_iff.1 h
  rw [List.drop_eq_getElem_cons hi, wsum_cons]

theorem wsum_take {l : List α} {i : Nat} {x : α} (h : l[i]? = some x) :
    wsum f (l.take (i + 1)) = wsum f (l.take i) + f x := by
  have h1 := wsum_take_drop f l i
  have h2 := wsum_take_drop f l (i + 1)
  have h3 := wsum_drop f h
  omega

theorem wsum_set {l : List α} {i : Nat} {x : α} (h : l[i]? = some x) (y : α) :
    wsum f (l.set i y) = wsum f l - f x + f y := by
  induction l generalizing i with
  | nil => simp at h
  | cons z l ih =>
    cases i with
    | zero => simp only [List.getElem?_cons_zero, Option.some.injEq] at h; subst h; simp; omega
    | succ i =>
      simp only [List.getElem?_cons_succ] at h
      simp only [List.set_cons_succ, wsum_cons, ih h]; omega

theorem sliceInsert_wt {l l' : List α} {i : Nat} {x : α} (h : sliceInsert l i x = .ok l') :
    wsum f l' = wsum f l + f x := by
  unfold sliceInsert at h
  split at h
  · cases h
    have := wsum_take_drop f l i
    simp only [wsum_append, wsum_cons]; omega
  · cases h

theorem sliceRemove_wt {l l' : List α} {i : Nat} {x : α} (h : sliceRemove l i = .ok (x, l')) :
    wsum f l' = wsum f l - f x := by
  unfold sliceRemove at h
  split at h
  · cases h
    rename_i hx
    have := wsum_take_drop f l i
    have := wsum_drop f hx
    simp only [wsum_append]; omega
  · cases h

theorem sliceRemove_get {l l' : List α} {i : Nat} {x : α} (h : sliceRemove l i = .ok (x, l')) :
    l[i]? = some x := by
  unfold sliceRemove at h
  split at h
  · cases h; assumption
  · cases h

theorem readAt_get {l : List α} {i : Nat} {x : α} (h : readAt l i = .ok x) : l[i]? = some x := by
  unfold readAt at h
  split at h
  · cases h; assumption
  · cases h

end

section
variable (w : K → Int) (u : A → Int) (m : Int)

/-- Weight of the keys of a leaf. -/
def Leaf.wt (l : Leaf K V) : Int := wsum (fun e => w e.1) l.data

/-- Weight of the keys and augmentations of an inner node. -/
def Inner.wt (n : Inner K A) : Int := wsum w n.keys + wsum u n.augs

/-- Weight of a leaf slot of the store. -/
def leafSlotWt : Option (Leaf K V) → Int
  | some l => l.wt w
  | none => 0

/-- Weight of an inner slot of the store. -/
def innerSlotWt : Option (Inner K A) → Int
  | some n => n.wt w u
  | none => 0

/-- Weight of the store. -/
def Store.wt (s : Store K V A) : Int :=
  wsum (leafSlotWt w) s.leaves + wsum (innerSlotWt w u) s.inners

/-- Weight carried by a result. -/
def InsertResult.wt : InsertResult K V → Int
  | .split k _ => w k
  | _ => 0

/-- Weight carried by a result. -/
def DeleteResult.wt : DeleteResult K V → Int
  | .done kv => w kv.1
  | .innerUnderSize kv => w kv.1
  | .leafUnderSize _ => 0

/-- The number of merges of inner nodes so far. -/
def Statistic.merges (st : Statistic) : Int := st.mergeWithLeftInner + st.mergeWithRightInner

/-- What an event adds to the weight owned by the map; `m` for the drop of a moved augmentation. -/
def Event.wt : Event K A → Int
  | .cloneKey k => w k
  | .dropKey k => - w k
  | .makeAug a => u a
  | .dropAug a => - u a
  | .dropMovedAug _ => m

/-- If the program succeeds, its log accounts for the change from `pre` to `post`. -/
def Logged.Bal {α : Type} (x : Logged K A α) (pre : Int) (post : α → Int) : Prop :=
  ∀ a, x.result = .ok a → pre + wsum (Event.wt w u m) x.log = post a

variable {w u m}

namespace Logged
variable {α β : Type}

theorem bal_pure {a : α} {pre : Int} {post : α → Int} (h : pre = post a) :
    (pure a : Logged K A α).Bal w u m pre post := by
  intro b hb
  cases hb
  simpa using h

theorem bal_bind {x : Logged K A α} {f : α → Logged K A β} {pre : Int} {mid : α → Int}
    {post : β → Int} (hx : x.Bal w u m pre mid)
    (hf : ∀ a, x.result = .ok a → (f a).Bal w u m (mid a) post) : (x >>= f).Bal w u m pre post := by
  intro b hb
  rw [result_bind] at hb
  obtain ⟨a, ha, hb⟩ := bind_ok hb
  rw [log_bind ha, wsum_append, ← hf a ha b hb, ← hx a ha]
  omega

theorem bal_lift {x : Res α} {pre : Int} {post : α → Int} (h : ∀ a, x = .ok a → pre = post a) :
    (liftM x : Logged K A α).Bal w u m pre post := by
  intro a ha
  simpa using h a ha

theorem bal_lift_bind {x : Res α} {f : α → Logged K A β} {pre : Int} {post : β → Int}
    (hf : ∀ a, x = .ok a → (f a).Bal w u m pre post) :
    ((liftM x : Logged K A α) >>= f).Bal w u m pre post :=
  bal_bind (mid := fun _ => pre) (bal_lift fun _ _ => rfl) hf

theorem bal_emit_bind {es : List (Event K A)} {f : Unit → Logged K A β} {pre : Int} {post : β → Int}
    (hf : (f ()).Bal w u m (pre + wsum (Event.wt w u m) es) post) : (emit es >>= f).Bal w u m pre post :=
  bal_bind (mid := fun _ => pre + wsum (Event.wt w u m) es) (fun _ _ => rfl) fun _ _ => hf

theorem bal_guard {c : Prop} [Decidable c] {e : Res Unit} {f : Unit → Logged K A β} {pre : Int}
    {post : β → Int} (h : (f ()).Bal w u m pre post) :
    (if c then (liftM e : Logged K A Unit) >>= f else f ()).Bal w u m pre post := by
  split
  · exact bal_lift_bind fun _ _ => h
  · exact h

theorem bal_eq {x : Logged K A α} {pre pre' : Int} {post : α → Int} (h : x.Bal w u m pre post)
    (e : pre' = pre) : x.Bal w u m pre' post := e ▸ h

theorem bal_frame {x : Logged K A α} {pre : Int} {post : α → Int} (h : x.Bal w u m pre post)
    (c : Int) : x.Bal w u m (pre + c) (fun a => post a + c) := by
  intro a ha
  have := h a ha
  simp only
  omega

end Logged

/-! ## Stores -/

theorem Store.wt_cache {s : Store K V A} {i : Nat} : (s.cacheLeaf i).wt w u = s.wt w u := rfl

theorem Store.wt_setLeaf {s : Store K V A} {i : Nat} {l : Leaf K V} (h : s.getLeaf i = .ok l)
    (l' : Leaf K V) : (s.setLeaf i l').wt w u = s.wt w u - l.wt w + l'.wt w := by
  unfold Store.wt Store.setLeaf
  simp only
  rw [wsum_set _ (getLeaf_eq h)]
  simp only [leafSlotWt]
  omega

theorem Store.wt_setInner {s : Store K V A} {i : Nat} {n : Inner K A} (h : s.getInner i = .ok n)
    (n' : Inner K A) : (s.setInner i n').wt w u = s.wt w u - n.wt w u + n'.wt w u := by
  unfold Store.wt Store.setInner
  simp only
  rw [wsum_set _ (getInner_eq0 h)]
  simp only [innerSlotWt]
  omega

theorem Store.wt_addInner {s : Store K V A} {n : Inner K A} :
    (s.addInner n).1.wt w u = s.wt w u + n.wt w u := by
  simp only [Store.wt, Store.addInner, wsum_append, wsum_cons, wsum_nil, innerSlotWt]
  omega

theorem Store.wt_reserve {s : Store K V A} : s.reserveLeaf.1.wt w u = s.wt w u := by
  simp only [Store.wt, Store.reserveLeaf, wsum_append, wsum_cons, wsum_nil, leafSlotWt]
  omega

theorem Store.takeLeaf_wt {s s' : Store K V A} {i : Nat} {l : Leaf K V}
    (h : s.takeLeaf i = .ok (l, s')) : s'.wt w u = s.wt w u - l.wt w ∧ s'.inners = s.inners := by
  unfold Store.takeLeaf at h
  split at h
  · cases h
    rename_i hx
    refine ⟨?_, rfl⟩
    simp only [Store.wt]
    rw [wsum_set _ hx]
    simp only [leafSlotWt]
    omega
  · cases h

theorem Store.takeInner_wt {s s' : Store K V A} {i : Nat} {n : Inner K A}
    (h : s.takeInner i = .ok (n, s')) : s'.wt w u = s.wt w u - n.wt w u := by
  unfold Store.takeInner at h
  split at h
  · cases h
    rename_i hx
    simp only [Store.wt]
    rw [wsum_set _ hx]
    simp only [innerSlotWt]
    omega
  · cases h

/-! ## Leaves -/

theorem Leaf.setPrev_wt {l : Leaf K V} {p : Option Nat} : (l.setPrev p).wt w = l.wt w := rfl

theorem Leaf.upsertAt_wt {l l' : Leaf K V} {slot : Slot} {k : K} {v : V} {r : Leaf.UpsertResult K V}
    (h : l.upsertAt slot k v = .ok (l', r)) :
    match r with
    | .inserted => l'.wt w = l.wt w + w k
    | .updated _ => l'.wt w = l.wt w
    | .isFull _ k' _ => k' = k ∧ l' = l := by
  unfold Leaf.upsertAt at h
  cases slot with
  | found i =>
    obtain ⟨kv, h1, h⟩ := bind_ok h
    cases h
    simp only [Leaf.wt]
    rw [wsum_set _ (readAt_get h1)]
    simp only; omega
  | vacant i =>
    simp only at h
    split at h
    · obtain ⟨d, h1, h⟩ := bind_ok h
      cases h
      simp only [Leaf.wt]
      rw [sliceInsert_wt _ h1]
    · cases h
      exact ⟨rfl, rfl⟩

theorem Leaf.splitNewLeaf_wt {l l' r : Leaf K V} {i a b : Nat} {e : K × V}
    (h : l.splitNewLeaf i e a b = .ok (l', r)) : l'.wt w + r.wt w = l.wt w + w e.1 := by
  unfold Leaf.splitNewLeaf at h
  split at h
  · cases h
  · simp only at h
    have := wsum_take_drop (fun e : K × V => w e.1) l.data splitOrigin
    split at h
    · obtain ⟨d, h1, h⟩ := bind_ok h
      cases h
      simp only [Leaf.wt]
      rw [sliceInsert_wt _ h1]
      omega
    · obtain ⟨d, h1, h⟩ := bind_ok h
      cases h
      simp only [Leaf.wt]
      rw [sliceInsert_wt _ h1]
      omega

theorem Leaf.deleteAt_wt {l l' : Leaf K V} {i : Nat} {e : K × V} (h : l.deleteAt i = .ok (e, l')) :
    l'.wt w = l.wt w - w e.1 := by
  unfold Leaf.deleteAt at h
  obtain ⟨d, h1, h⟩ := bind_ok h
  cases h
  exact sliceRemove_wt _ h1

theorem Leaf.pop_wt {l l' : Leaf K V} {e : K × V} (h : l.pop = .ok (e, l')) :
    l'.wt w = l.wt w - w e.1 := by
  unfold Leaf.pop at h
  split at h
  · cases h
  · obtain ⟨d, h1, h⟩ := bind_ok h
    cases h
    exact sliceRemove_wt _ h1

theorem Leaf.popFront_wt {l l' : Leaf K V} {e : K × V} (h : l.popFront = .ok (e, l')) :
    l'.wt w = l.wt w - w e.1 := by
  unfold Leaf.popFront at h
  split at h
  · cases h
  · obtain ⟨d, h1, h⟩ := bind_ok h
    cases h
    exact sliceRemove_wt _ h1

theorem Leaf.deleteWithPush_wt {l l' : Leaf K V} {i : Nat} {e x : K × V}
    (h : l.deleteWithPush i x = .ok (e, l')) : l'.wt w = l.wt w - w e.1 + w x.1 := by
  unfold Leaf.deleteWithPush at h
  obtain ⟨d, h1, h⟩ := bind_ok h
  cases h
  have := sliceRemove_wt (fun e : K × V => w e.1) h1
  simp only [Leaf.wt, wsum_append, wsum_cons, wsum_nil]
  omega

theorem Leaf.deleteWithPushFront_wt {l l' : Leaf K V} {i : Nat} {e x : K × V}
    (h : l.deleteWithPushFront i x = .ok (e, l')) : l'.wt w = l.wt w - w e.1 + w x.1 := by
  unfold Leaf.deleteWithPushFront at h
  split at h
  · cases h
  · obtain ⟨d, h1, h⟩ := bind_ok h
    cases h
    have h1 := readAt_get h1
    have h2 := wsum_take_drop (fun e : K × V => w e.1) l.data i
    have h3 := wsum_drop (fun e : K × V => w e.1) h1
    simp only [Leaf.wt, wsum_append, wsum_cons, List.cons_append]
    omega

theorem Leaf.extend_wt {l l' : Leaf K V} {xs : List (K × V)} (h : l.extend xs = .ok l') :
    l'.wt w = l.wt w + wsum (fun e => w e.1) xs := by
  unfold Leaf.extend at h
  split at h
  · cases h
    simp only [Leaf.wt, wsum_append]
  · cases h

theorem Leaf.mergeRightDeleteFirst_wt {l l' r : Leaf K V} {i : Nat} {e : K × V}
    (h : l.mergeRightDeleteFirst i r = .ok (e, l')) : l'.wt w = l.wt w + r.wt w - w e.1 := by
  unfold Leaf.mergeRightDeleteFirst at h
  obtain ⟨d, h1, h⟩ := bind_ok h
  obtain ⟨a, h2, h⟩ := bind_ok h
  obtain ⟨b, h3, h⟩ := bind_ok h
  cases h
  have h2 := Leaf.extend_wt (w := w) h2
  have h3 := Leaf.extend_wt (w := w) h3
  have h4 := wsum_take_drop (fun e : K × V => w e.1) r.data i
  have h5 := wsum_drop (fun e : K × V => w e.1) (readAt_get h1)
  simp only [Leaf.wt] at *
  omega

theorem Leaf.mergeRight_wt {l l' r : Leaf K V} (h : l.mergeRight r = .ok l') :
    l'.wt w = l.wt w + r.wt w := by
  unfold Leaf.mergeRight at h
  obtain ⟨a, h2, h⟩ := bind_ok h
  cases h
  have := Leaf.extend_wt (w := w) h2
  simpa [Leaf.wt] using this

theorem Leaf.tryDeleteAt_wt {l l' : Leaf K V} {i : Nat} {r : Leaf.DeleteResult K V}
    (h : l.tryDeleteAt i = .ok (l', r)) :
    match r with
    | .done kv => l'.wt w = l.wt w - w kv.1
    | .underSize _ => l' = l := by
  unfold Leaf.tryDeleteAt at h
  split at h
  · obtain ⟨d, h1, h⟩ := bind_ok h
    cases h
    exact sliceRemove_wt _ h1
  · cases h
    rfl

/-! ## Inner nodes -/

theorem Inner.newFromIter_wt {ks : List K} {cs : List NodeId} {as : List A} {n : Inner K A}
    (h : Inner.newFromIter ks cs as = .ok n) : n.wt w u = wsum w ks + wsum u as := by
  unfold Inner.newFromIter at h
  split at h
  · split at h
    · cases h; rfl
    · cases h
  · cases h

theorem Inner.insertAt_wt {n n' : Inner K A} {i : Nat} {k : K} {c : NodeId} {a : A}
    (h : n.insertAt i k c a = .ok n') : n'.wt w u = n.wt w u + w k + u a := by
  unfold Inner.insertAt at h
  split at h
  · cases h
  · obtain ⟨ks, h1, h⟩ := bind_ok h
    obtain ⟨cs, _, h⟩ := bind_ok h
    obtain ⟨as, h2, h⟩ := bind_ok h
    cases h
    have := sliceInsert_wt w h1
    have := sliceInsert_wt u h2
    simp only [Inner.wt]
    omega

theorem Inner.split_wt {n l r : Inner K A} {i : Nat} {k k' : K} {c : NodeId} {a : A}
    (h : n.split i k c a = .ok (k', l, r)) :
    l.wt w u + r.wt w u + w k' = n.wt w u + w k + u a := by
  unfold Inner.split at h
  split at h
  · cases h
  rename_i hfull
  split at h
  · cases h
  rename_i hle
  have hk (i : Nat) := wsum_take_drop w n.keys i
  have ha (i : Nat) := wsum_take_drop u n.augs i
  split at h
  · obtain ⟨x, h0, h⟩ := bind_ok h
    obtain ⟨ks, h1, h⟩ := bind_ok h
    obtain ⟨cs, _, h⟩ := bind_ok h
    obtain ⟨as, h2, h⟩ := bind_ok h
    cases h
    have e1 := sliceInsert_wt w h1
    have e2 := sliceInsert_wt u h2
    have e3 := hk (splitOrigin - 1)
    have e4 := wsum_drop w (readAt_get h0)
    have e5 := ha splitOrigin
    simp only [Inner.wt] at *
    have e6 : splitOrigin - 1 + 1 = splitOrigin := rfl
    rw [e6] at e4
    omega
  · split at h
    · obtain ⟨x, h0, h⟩ := bind_ok h
      cases h
      have e1 := hk splitOrigin
      have e2 := wsum_drop w (readAt_get h0)
      have e3 := ha (splitOrigin + 1)
      have e4 := wsum_take_drop w (n.keys.drop (splitOrigin + 1)) (i - 1 - splitOrigin)
      have e5 := wsum_take_drop u (n.augs.drop (splitOrigin + 1)) (i - splitOrigin)
      rw [List.drop_drop] at e4 e5
      have e6 : splitOrigin + 1 + (i - 1 - splitOrigin) = splitOrigin + (i - 1 - splitOrigin) + 1 := by
        omega
      rw [e6] at e4
      simp only [Inner.wt, wsum_append, wsum_cons]
      omega
    · cases h
      have e1 := hk splitOrigin
      have e3 := ha (splitOrigin + 1)
      simp only [Inner.wt, wsum_cons]
      omega

theorem Inner.mergeNext_wt {n r n' : Inner K A} {k : K} (h : n.mergeNext k r = .ok n') :
    n'.wt w u = n.wt w u + r.wt w u + w k := by
  unfold Inner.mergeNext at h
  split at h
  · cases h
  · split at h
    · cases h
    · cases h
      simp only [Inner.wt, wsum_append, wsum_cons]
      omega

theorem Inner.pop_wt {n n' : Inner K A} {k : K} {c : NodeId} {a : A}
    (hk : n.augs.length = n.keys.length + 1) (h : n.pop = .ok ((k, c, a), n')) :
    n'.wt w u = n.wt w u - w k - u a := by
  unfold Inner.pop at h
  split at h
  · cases h
  · obtain ⟨x, h1, h⟩ := bind_ok h
    obtain ⟨y, _, h⟩ := bind_ok h
    obtain ⟨z, h2, h⟩ := bind_ok h
    cases h
    have e1 := wsum_take w (readAt_get h1)
    have e2 := wsum_take u (readAt_get h2)
    simp only [Inner.len] at *
    have e3 : n.keys.length - 1 + 1 = n.keys.length := by omega
    rw [e3, List.take_length] at e1
    rw [← hk, List.take_length] at e2
    simp only [Inner.wt]
    omega

theorem Inner.popFront_wt {n n' : Inner K A} {k : K} {c : NodeId} {a : A}
    (h : n.popFront = .ok ((k, c, a), n')) : n'.wt w u = n.wt w u - w k - u a := by
  unfold Inner.popFront at h
  obtain ⟨x, h1, h⟩ := bind_ok h
  obtain ⟨y, _, h⟩ := bind_ok h
  obtain ⟨z, h2, h⟩ := bind_ok h
  cases h
  have e1 := sliceRemove_wt w h1
  have e2 := sliceRemove_wt u h2
  simp only [Inner.wt]
  omega

theorem Inner.push_wt {n n' : Inner K A} {k : K} {c : NodeId} {a : A}
    (h : n.push k c a = .ok n') : n'.wt w u = n.wt w u + w k + u a := by
  unfold Inner.push at h
  split at h
  · cases h
    simp only [Inner.wt, wsum_append, wsum_cons, wsum_nil]
    omega
  · cases h

theorem Inner.pushFront_wt {n n' : Inner K A} {k : K} {c : NodeId} {a : A}
    (h : n.pushFront k c a = .ok n') : n'.wt w u = n.wt w u + w k + u a := by
  unfold Inner.pushFront at h
  split at h
  · cases h
    simp only [Inner.wt, wsum_cons]
    omega
  · cases h

theorem Inner.setKey_wt {n n' : Inner K A} {i : Nat} {k old : K}
    (h : n.setKey i k = .ok (old, n')) : n'.wt w u = n.wt w u - w old + w k := by
  unfold Inner.setKey at h
  obtain ⟨x, h1, h⟩ := bind_ok h
  cases h
  simp only [Inner.wt]
  rw [wsum_set w (readAt_get h1)]
  omega

theorem setAugL_bal {n : Inner K A} {i : Nat} {a : A} :
    (n.setAugmentationL i a).Bal w u m (n.wt w u + u a) (fun n' => n'.wt w u) := by
  refine Logged.bal_lift_bind fun n' h => Logged.bal_emit_bind (Logged.bal_pure ?_)
  unfold Inner.setAugmentation at h
  split at h
  · cases h
    rename_i hi
    have hx := List.getElem?_eq_getElem hi
    rw [hx]
    simp only [Inner.wt, wsum_set u hx, Option.toList_some, List.map_cons, List.map_nil, wsum_cons,
      wsum_nil, Event.wt]
    omega
  · cases h

theorem removeSlotL_bal {n : Inner K A} {i : Nat} :
    (n.removeSlotWithRightL i).Bal w u m (n.wt w u) (fun r => r.2.2.wt w u + w r.2.1) := by
  refine Logged.bal_lift_bind fun n' h => Logged.bal_emit_bind (Logged.bal_pure ?_)
  unfold Inner.removeSlotWithRight at h
  obtain ⟨x, h1, h⟩ := bind_ok h
  obtain ⟨y, _, h⟩ := bind_ok h
  obtain ⟨z, h2, h⟩ := bind_ok h
  cases h
  have e1 := sliceRemove_wt w h1
  have e2 := sliceRemove_wt u h2
  rw [sliceRemove_get h2]
  simp only [Inner.wt, Option.toList_some, List.map_cons, List.map_nil, wsum_cons, wsum_nil, Event.wt]
  omega

section
variable [Augmentation K V A]

theorem newAugL_bal {s : Store K V A} {i : NodeId} {pre : Int} :
    (newAugmentationL s i).Bal w u m pre (fun a => pre + u a) := by
  refine Logged.bal_lift_bind fun n' h => Logged.bal_emit_bind (Logged.bal_pure ?_)
  simp [Event.wt]

theorem leafAugL_bal {l : Leaf K V} {pre : Int} :
    (leafAugL l : Logged K A A).Bal w u m pre (fun a => pre + u a) := by
  refine Logged.bal_emit_bind (Logged.bal_pure ?_)
  simp [Event.wt]

theorem innerAugL_bal {n : Inner K A} {pre : Int} :
    (innerAugL V n : Logged K A A).Bal w u m pre (fun a => pre + u a) := by
  refine Logged.bal_emit_bind (Logged.bal_pure ?_)
  simp [Event.wt]


theorem Store.none_setLeaf {s : Store K V A} {i j : Nat} {l l' : Leaf K V}
    (h : s.leaves[i]? = some none) (hj : s.getLeaf j = .ok l) :
    (s.setLeaf j l').leaves[i]? = some none := by
  have hj := getLeaf_eq hj
  have hij : j ≠ i := by
    rintro rfl
    rw [h] at hj
    cases hj
  simp [Store.setLeaf, hij, h]

omit [Augmentation K V A] in
theorem Store.assign_wt {s s' : Store K V A} {i : Nat} {l : Leaf K V}
    (h : s.leaves[i]? = some none) (hs : s.assignLeaf i l = .ok s') :
    s'.wt w u = s.wt w u + l.wt w := by
  unfold Store.assignLeaf at hs
  split at hs
  · cases hs
    simp only [Store.wt, Store.setLeaf]
    rw [wsum_set _ h]
    simp only [leafSlotWt]
    omega
  · cases hs

/-! ## Insertion -/

theorem insertLeafL_bal {o : Answers K} {s : Store K V A} {id : Nat} {k : K} {v : V} :
    (insertLeafL o s id k v).Bal w u m (s.wt w u + w k)
      (fun q => q.1.wt w u + q.2.wt w) := by
  unfold insertLeafL
  refine Logged.bal_lift_bind fun leaf hleaf => Logged.bal_lift_bind fun slot _ =>
    Logged.bal_lift_bind fun q hq => ?_
  obtain ⟨leaf', r⟩ := q
  have hu := Leaf.upsertAt_wt (w := w) hq
  have hset := Store.wt_setLeaf (w := w) (u := u) hleaf leaf'
  cases r with
  | inserted =>
    refine Logged.bal_pure ?_
    simp only [InsertResult.wt, Store.wt_cache] at *
    omega
  | updated v0 =>
    refine Logged.bal_emit_bind (Logged.bal_pure ?_)
    simp only [InsertResult.wt, wsum_cons, wsum_nil, Event.wt] at *
    omega
  | isFull idx k' v' =>
    obtain ⟨rfl, rfl⟩ := hu
    refine Logged.bal_lift_bind fun lLeaf hl => Logged.bal_lift_bind fun q hq => ?_
    obtain ⟨l1, rLeaf⟩ := q
    have e1 := Leaf.splitNewLeaf_wt (w := w) hq
    simp only at e1
    have e2 := Store.wt_setLeaf (w := w) (u := u) hl l1
    have e0 := Store.wt_reserve (w := w) (u := u) (s := s)
    simp only [Store.reserveLeaf] at e0
    have hnone : (Store.setLeaf ⟨s.inners, s.leaves ++ [none], s.cached⟩ id l1).leaves[s.leaves.length]?
        = some none := Store.none_setLeaf (by simp) hl
    refine Logged.bal_lift_bind fun kv _ => Logged.bal_emit_bind <|
      Logged.bal_lift_bind fun s1 hs1 => Logged.bal_lift_bind fun s2 hs2 => Logged.bal_pure ?_
    have e3 : s1.wt w u = (Store.setLeaf ⟨s.inners, s.leaves ++ [none], s.cached⟩ id l1).wt w u ∧
        s1.leaves[s.leaves.length]? = some none := by
      split at hs1
      · obtain ⟨nl, h1, h2⟩ := bind_ok hs1
        cases h2
        refine ⟨?_, Store.none_setLeaf hnone h1⟩
        rw [Store.wt_setLeaf h1, Leaf.setPrev_wt]
        omega
      · cases hs1
        exact ⟨rfl, hnone⟩
    have e4 := Store.assign_wt (w := w) (u := u) e3.2 hs2
    simp only [InsertResult.wt, Store.wt_cache, wsum_cons, wsum_nil, Event.wt]
    omega

theorem insertAscendL_bal {s : Store K V A} {st : List StackEntry} {r : InsertResult K V} :
    (insertAscendL s st r).Bal w u m (s.wt w u + r.wt w) (fun q => q.1.wt w u + q.2.wt w) := by
  induction st generalizing s r with
  | nil => exact Logged.bal_pure rfl
  | cons e st ih =>
    obtain ⟨id, ci, cid⟩ := e
    have keep : ∀ r : InsertResult K V, (newAugmentationL s cid >>= fun childAug =>
        (liftM (s.getInner id) : Logged K A _) >>= fun node =>
        node.setAugmentationL ci childAug >>= fun node =>
        insertAscendL (s.setInner id node) st r).Bal w u m (s.wt w u + r.wt w)
          (fun q => q.1.wt w u + q.2.wt w) := by
      intro r
      refine Logged.bal_bind newAugL_bal fun a _ => Logged.bal_lift_bind fun node hnode => ?_
      refine Logged.bal_bind (mid := fun n' => (s.setInner id n').wt w u + r.wt w) ?_ fun n' _ => ih
      intro n' hn'
      have e1 := setAugL_bal (w := w) (u := u) (m := m) n' hn'
      have e2 := Store.wt_setInner (w := w) (u := u) hnode n'
      simp only at *
      omega
    cases r with
    | inserted => exact keep _
    | updated v => exact keep _
    | split key rc =>
      refine Logged.bal_bind newAugL_bal fun a _ => Logged.bal_bind newAugL_bal fun b _ =>
        Logged.bal_lift_bind fun node hnode => ?_
      refine Logged.bal_bind (mid := fun n' => s.wt w u - node.wt w u + n'.wt w u + u a + w key)
        ?_ fun n' _ => ?_
      · intro n' hn'
        have e1 := setAugL_bal (w := w) (u := u) (m := m) n' hn'
        simp only [InsertResult.wt] at *
        omega
      · split
        · refine Logged.bal_lift_bind fun n2 hn2 => Logged.bal_eq ih ?_
          have e1 := Inner.insertAt_wt (w := w) (u := u) hn2
          have e2 := Store.wt_setInner (w := w) (u := u) hnode n2
          simp only [InsertResult.wt] at *
          omega
        · refine Logged.bal_lift_bind fun q hq => Logged.bal_eq ih ?_
          obtain ⟨k', l, r⟩ := q
          have e1 := Inner.split_wt (w := w) (u := u) hq
          have e2 := Store.wt_setInner (w := w) (u := u) hnode l
          have e3 := Store.wt_addInner (w := w) (u := u) (s := s.setInner id l) (n := r)
          simp only [InsertResult.wt, Store.addInner] at *
          omega

theorem descendInsertL_bal {o : Answers K} {s : Store K V A} {id : NodeId} {k : K} {v : V} :
    (descendInsertL o s id k v).Bal w u m (s.wt w u + w k) (fun q => q.1.wt w u + q.2.wt w) := by
  cases id with
  | leaf id => exact insertLeafL_bal
  | inner id =>
    exact Logged.bal_lift_bind fun q hq => Logged.bal_bind insertLeafL_bal fun q2 _ => insertAscendL_bal

theorem finishInsertL_bal {t : Tree K V A} {s : Store K V A} {r : InsertResult K V} :
    (t.finishInsertL s r).Bal w u m (s.wt w u + r.wt w + u t.rootAug)
      (fun q => q.2.store.wt w u + u q.2.rootAug) := by
  unfold Tree.finishInsertL
  cases r with
  | inserted =>
    refine Logged.bal_bind newAugL_bal fun a _ => Logged.bal_emit_bind (Logged.bal_pure ?_)
    simp only [InsertResult.wt, wsum_cons, wsum_nil, Event.wt]
    omega
  | updated v =>
    refine Logged.bal_bind newAugL_bal fun a _ => Logged.bal_emit_bind (Logged.bal_pure ?_)
    simp only [InsertResult.wt, wsum_cons, wsum_nil, Event.wt]
    omega
  | split k nc =>
    refine Logged.bal_bind newAugL_bal fun a _ => Logged.bal_bind newAugL_bal fun b _ =>
      Logged.bal_lift_bind fun n hn => Logged.bal_bind innerAugL_bal fun c _ =>
      Logged.bal_emit_bind (Logged.bal_pure ?_)
    have e1 := Inner.newFromIter_wt (w := w) (u := u) hn
    have e2 := Store.wt_addInner (w := w) (u := u) (s := s) (n := n)
    simp only [InsertResult.wt, Store.addInner, wsum_cons, wsum_nil, Event.wt] at *
    omega

/-- **Insertion.** The map takes the key; the log accounts for the rest. -/
theorem insertL_bal {o : Answers K} {t : Tree K V A} {k : K} {v : V} :
    (t.insertL o k v).Bal w u m (t.store.wt w u + u t.rootAug + w k)
      (fun q => q.2.store.wt w u + u q.2.rootAug) := by
  unfold Tree.insertL
  refine Logged.bal_bind (mid := fun q => q.1.wt w u + q.2.wt w + u t.rootAug) ?_
    fun q _ => finishInsertL_bal
  intro q hq
  have := descendInsertL_bal (w := w) (u := u) (m := m) q hq
  simp only at *
  omega

/-! ## Removal: inner nodes -/

/-- The child of `node` in place `i` is an inner node other than `pid`, with one augmentation more than keys. -/
def Kids (s : Store K V A) (pid : Nat) (node : Inner K A) : Prop :=
  ∀ j, NodeId.inner j ∈ node.childs → j ≠ pid ∧
    ∀ n, s.getInner j = .ok n → n.augs.length = n.keys.length + 1

omit [Augmentation K V A] in
theorem Kids.at {s : Store K V A} {pid : Nat} {n : Inner K A} (a : Kids s pid n) {i j : Nat}
    (hc : (do (← n.childId i).innerIdUnchecked : Res Nat) = .ok j) : j ≠ pid ∧
    ∀ n, s.getInner j = .ok n → n.augs.length = n.keys.length + 1 := by
  obtain ⟨c, h1, h2⟩ := bind_ok hc
  have := childId_mem h1
  cases c with
  | inner k => cases h2; exact a _ this
  | leaf k => cases h2

omit [Augmentation K V A] in
theorem Store.frame_setInner {s : Store K V A} {i pid : Nat} {n : Inner K A} (h : i ≠ pid) :
    (s.setInner i n).inners[pid]? = s.inners[pid]? := by
  simp [Store.setInner, h]

omit [Augmentation K V A] in
theorem Store.frame_takeInner {s s' : Store K V A} {i pid : Nat} {n : Inner K A} (h : i ≠ pid)
    (ht : s.takeInner i = .ok (n, s')) : s'.inners[pid]? = s.inners[pid]? := by
  unfold Store.takeInner at ht
  split at ht
  · cases ht
    simp [h]
  · cases ht


theorem rotRightInner_frame {s s' : Store K V A} {pid : Nat} {node node' : Inner K A} {slot : Nat}
    (hk : Kids s pid node) (h : tryRotateRightInner s node slot = .ok (some (s', node'))) :
    s'.inners[pid]? = s.inners[pid]? := by
  unfold tryRotateRightInner at h
  obtain ⟨c1, h1, h⟩ := bind_ok h
  obtain ⟨ri, h1', h⟩ := bind_ok h
  obtain ⟨c2, h2, h⟩ := bind_ok h
  obtain ⟨li, h2', h⟩ := bind_ok h
  have k1 := (hk.at (i := slot + 1) (j := ri) (by rw [h1, ok_bind, h1'])).1
  have k2 := (hk.at (i := slot) (j := li) (by rw [h2, ok_bind, h2'])).1
  obtain ⟨prev, h3, h⟩ := bind_ok h
  split at h
  · obtain ⟨q, h4, h⟩ := bind_ok h
    obtain ⟨q2, h5, h⟩ := bind_ok h
    obtain ⟨q3, h6, h⟩ := bind_ok h
    obtain ⟨q4, h7, h⟩ := bind_ok h
    obtain ⟨q5, h8, h⟩ := bind_ok h
    obtain ⟨q6, h9, h⟩ := bind_ok h
    cases h
    rw [Store.frame_setInner k1, Store.frame_setInner k2]
  · cases h

theorem rotLeftInner_frame {s s' : Store K V A} {pid : Nat} {node node' : Inner K A} {slot : Nat}
    (hk : Kids s pid node) (h : tryRotateLeftInner s node slot = .ok (some (s', node'))) :
    s'.inners[pid]? = s.inners[pid]? := by
  unfold tryRotateLeftInner at h
  obtain ⟨c1, h1, h⟩ := bind_ok h
  obtain ⟨ri, h1', h⟩ := bind_ok h
  obtain ⟨c2, h2, h⟩ := bind_ok h
  obtain ⟨li, h2', h⟩ := bind_ok h
  have k1 := (hk.at (i := slot + 1) (j := ri) (by rw [h1, ok_bind, h1'])).1
  have k2 := (hk.at (i := slot) (j := li) (by rw [h2, ok_bind, h2'])).1
  obtain ⟨prev, h3, h⟩ := bind_ok h
  split at h
  · obtain ⟨q, h4, h⟩ := bind_ok h
    obtain ⟨q2, h5, h⟩ := bind_ok h
    obtain ⟨q3, h6, h⟩ := bind_ok h
    obtain ⟨q4, h7, h⟩ := bind_ok h
    obtain ⟨q5, h8, h⟩ := bind_ok h
    obtain ⟨q6, h9, h⟩ := bind_ok h
    cases h
    rw [Store.frame_setInner k2, Store.frame_setInner k1]
  · cases h

theorem mergeInner_frame {s s' : Store K V A} {pid : Nat} {node node' : Inner K A} {slot : Nat}
    {ok : Bool} (hk : Kids s pid node) (h : mergeInnerNode s node slot = .ok (ok, s', node')) :
    s'.inners[pid]? = s.inners[pid]? := by
  unfold mergeInnerNode at h
  split at h
  · cases h
  obtain ⟨c1, h1, h⟩ := bind_ok h
  obtain ⟨li, h1', h⟩ := bind_ok h
  obtain ⟨c2, h2, h⟩ := bind_ok h
  obtain ⟨ri, h2', h⟩ := bind_ok h
  have k1 := (hk.at (i := slot) (j := li) (by rw [h1, ok_bind, h1'])).1
  have k2 := (hk.at (i := slot + 1) (j := ri) (by rw [h2, ok_bind, h2'])).1
  obtain ⟨q, h4, h⟩ := bind_ok h
  obtain ⟨q2, h5, h⟩ := bind_ok h
  obtain ⟨q3, h6, h⟩ := bind_ok h
  obtain ⟨q4, h7, h⟩ := bind_ok h
  obtain ⟨q5, h8, h⟩ := bind_ok h
  cases h
  rw [Store.frame_setInner k1, Store.frame_takeInner k2 h5]

theorem handleInner_frame {s s' : Store K V A} {st st' : Statistic} {pid : Nat} {node node' : Inner K A}
    {i : Nat} {kv : K × V} {r : DeleteResult K V} (hk : Kids s pid node)
    (h : handleInnerUnderSize s st node i kv = .ok (r, s', st', node')) :
    s'.inners[pid]? = s.inners[pid]? := by
  unfold handleInnerUnderSize at h
  obtain ⟨q, h1, h⟩ := bind_ok h
  cases q with
  | some q =>
    cases h
    split at h1
    · exact rotRightInner_frame hk h1
    · cases h1
  | none =>
    obtain ⟨q, h2, h⟩ := bind_ok h
    cases q with
    | some q =>
      cases h
      split at h2
      · exact rotLeftInner_frame hk h2
      · cases h2
    | none =>
      obtain ⟨q, h3, h⟩ := bind_ok h
      obtain ⟨ok, s1, n1⟩ := q
      have := mergeInner_frame hk h3
      simp only at h
      cases ok <;> · cases h; exact this

theorem rotRightInnerL_bal {s : Store K V A} {pid : Nat} {node : Inner K A} {slot : Nat}
    (hk : Kids s pid node) : (tryRotateRightInnerL s node slot).Bal w u m (s.wt w u + node.wt w u)
      (fun q => match q with
        | some q => q.1.wt w u + q.2.wt w u
        | none => s.wt w u + node.wt w u) := by
  unfold tryRotateRightInnerL
  refine Logged.bal_lift_bind fun ri hri => Logged.bal_lift_bind fun li hli =>
    Logged.bal_lift_bind fun prev hprev => ?_
  split
  · refine Logged.bal_lift_bind fun q hq => ?_
    obtain ⟨⟨k, c, a⟩, prev'⟩ := q
    have e1 := Inner.pop_wt (w := w) (u := u) ((hk.at hli).2 _ hprev) hq
    have e2 := Store.wt_setInner (w := w) (u := u) hprev prev'
    refine Logged.bal_bind innerAugL_bal fun la _ => Logged.bal_lift_bind fun q hq => ?_
    obtain ⟨sk, node'⟩ := q
    have e3 := Inner.setKey_wt (w := w) (u := u) hq
    refine Logged.bal_lift_bind fun right hright => Logged.bal_lift_bind fun right' hright' => ?_
    have e4 := Inner.pushFront_wt (w := w) (u := u) hright'
    have e5 := Store.wt_setInner (w := w) (u := u) hright right'
    refine Logged.bal_bind innerAugL_bal fun ra _ => ?_
    refine Logged.bal_bind (mid := fun n => ((s.setInner li prev').setInner ri right').wt w u + n.wt w u + u ra)
      ?_ fun n1 _ => ?_
    · intro n hn
      have := setAugL_bal (w := w) (u := u) (m := m) n hn
      simp only at *
      omega
    refine Logged.bal_bind (mid := fun n => ((s.setInner li prev').setInner ri right').wt w u + n.wt w u)
      ?_ fun n1 _ => ?_
    · intro n hn
      have := setAugL_bal (w := w) (u := u) (m := m) n hn
      simp only at *
      omega
    exact Logged.bal_pure rfl
  · exact Logged.bal_pure rfl

theorem rotLeftInnerL_bal {s : Store K V A} {node : Inner K A} {slot : Nat} :
    (tryRotateLeftInnerL s node slot).Bal w u m (s.wt w u + node.wt w u)
      (fun q => match q with
        | some q => q.1.wt w u + q.2.wt w u
        | none => s.wt w u + node.wt w u) := by
  unfold tryRotateLeftInnerL
  refine Logged.bal_lift_bind fun ri hri => Logged.bal_lift_bind fun li hli =>
    Logged.bal_lift_bind fun prev hprev => ?_
  split
  · refine Logged.bal_lift_bind fun q hq => ?_
    obtain ⟨⟨k, c, a⟩, prev'⟩ := q
    have e1 := Inner.popFront_wt (w := w) (u := u) hq
    have e2 := Store.wt_setInner (w := w) (u := u) hprev prev'
    refine Logged.bal_bind innerAugL_bal fun la _ => Logged.bal_lift_bind fun q hq => ?_
    obtain ⟨sk, node'⟩ := q
    have e3 := Inner.setKey_wt (w := w) (u := u) hq
    refine Logged.bal_lift_bind fun right hright => Logged.bal_lift_bind fun right' hright' => ?_
    have e4 := Inner.push_wt (w := w) (u := u) hright'
    have e5 := Store.wt_setInner (w := w) (u := u) hright right'
    refine Logged.bal_bind innerAugL_bal fun ra _ => ?_
    refine Logged.bal_bind (mid := fun n => ((s.setInner ri prev').setInner li right').wt w u + n.wt w u + u la)
      ?_ fun n1 _ => ?_
    · intro n hn
      have := setAugL_bal (w := w) (u := u) (m := m) n hn
      simp only at *
      omega
    refine Logged.bal_bind (mid := fun n => ((s.setInner ri prev').setInner li right').wt w u + n.wt w u)
      ?_ fun n1 _ => ?_
    · intro n hn
      have := setAugL_bal (w := w) (u := u) (m := m) n hn
      simp only at *
      omega
    exact Logged.bal_pure rfl
  · exact Logged.bal_pure rfl

theorem mergeInnerL_bal {s : Store K V A} {pid : Nat} {node : Inner K A} {slot : Nat}
    (hk : Kids s pid node) : (mergeInnerNodeL s node slot).Bal w u m (s.wt w u + node.wt w u)
      (fun q => q.2.1.wt w u + q.2.2.wt w u + m) := by
  unfold mergeInnerNodeL
  refine Logged.bal_guard <| Logged.bal_lift_bind fun li hli => Logged.bal_lift_bind fun ri hri => ?_
  refine Logged.bal_bind (mid := fun r => s.wt w u + r.2.2.wt w u + w r.2.1) ?_ fun q _ => ?_
  · intro n hn
    have := removeSlotL_bal (w := w) (u := u) (m := m) n hn
    simp only at *
    omega
  obtain ⟨res, sk, node'⟩ := q
  refine Logged.bal_lift_bind fun q hq => ?_
  obtain ⟨right, s1⟩ := q
  have e1 := Store.takeInner_wt (w := w) (u := u) hq
  refine Logged.bal_lift_bind fun left hleft => Logged.bal_lift_bind fun left' hleft' => ?_
  have e2 := Inner.mergeNext_wt (w := w) (u := u) hleft'
  have e3 := Store.wt_setInner (w := w) (u := u) hleft left'
  refine Logged.bal_bind innerAugL_bal fun a _ => ?_
  simp only
  refine Logged.bal_bind (mid := fun n => (s1.setInner li left').wt w u + n.wt w u) ?_ fun n1 _ => ?_
  · intro n hn
    have := setAugL_bal (w := w) (u := u) (m := m) n hn
    simp only at *
    omega
  refine Logged.bal_emit_bind (Logged.bal_pure ?_)
  have hr : right.augs.length = right.keys.length + 1 := by
    refine (hk.at hri).2 right ?_
    unfold Store.takeInner at hq
    split at hq
    · cases hq
      rename_i hx
      simp [Store.getInner, hx]
    · cases hq
  cases hra : right.augs with
  | nil => rw [hra] at hr; cases hr
  | cons a l =>
    simp only [List.take_succ_cons, List.take_zero, List.map_cons, List.map_nil, wsum_cons, wsum_nil, Event.wt]
    omega

theorem handleInnerL_bal {s : Store K V A} {st : Statistic} {pid : Nat} {node : Inner K A}
    {i : Nat} {kv : K × V} (hk : Kids s pid node) :
    (handleInnerUnderSizeL s st node i kv).Bal w u m (s.wt w u + node.wt w u + w kv.1)
      (fun q => q.2.1.wt w u + q.2.2.2.wt w u + q.1.wt w + m * (q.2.2.1.merges - st.merges)) := by
  unfold handleInnerUnderSizeL
  refine Logged.bal_bind (mid := fun q => (match q with
      | some q => q.1.wt w u + q.2.wt w u
      | none => s.wt w u + node.wt w u) + w kv.1) ?_ fun q _ => ?_
  · intro q hq
    split at hq
    · rename_i hi
      rw [if_pos hi]
      have := rotRightInnerL_bal (w := w) (u := u) (m := m) hk q hq
      simp only at *
      omega
    · rename_i hi
      rw [if_neg hi]
      cases hq
      simp
  cases q with
  | some q => exact Logged.bal_pure (by simp [DeleteResult.wt, Statistic.merges])
  | none =>
    refine Logged.bal_bind (mid := fun q => (match q with
      | some q => q.1.wt w u + q.2.wt w u
      | none => s.wt w u + node.wt w u) + w kv.1) ?_ fun q _ => ?_
    · intro q hq
      split at hq
      · rename_i hi
        rw [if_pos hi]
        have := rotLeftInnerL_bal (w := w) (u := u) (m := m) q hq
        simp only at *
        omega
      · rename_i hi
        rw [if_neg hi]
        cases hq
        simp
    cases q with
    | some q => exact Logged.bal_pure (by simp [DeleteResult.wt, Statistic.merges])
    | none =>
      have e1 : ∀ a b : Int, m * (a + 1 + b - (a + b)) = m := by
        intro a b
        rw [show a + 1 + b - (a + b) = 1 by omega, Int.mul_one]
      have e2 : ∀ a b : Int, m * (a + (b + 1) - (a + b)) = m := by
        intro a b
        rw [show a + (b + 1) - (a + b) = 1 by omega, Int.mul_one]
      by_cases hi : 0 < i
      · simp only [if_pos hi]
        refine Logged.bal_bind (mid := fun q => q.2.1.wt w u + q.2.2.wt w u + w kv.1 + m) ?_ fun q _ => ?_
        · intro q hq
          have := mergeInnerL_bal (w := w) (u := u) (m := m) hk q hq
          simp only at *
          omega
        · split <;>
          · refine Logged.bal_pure ?_
            simp only [DeleteResult.wt, Statistic.merges, Int.natCast_add, Int.natCast_one, e1]
      · simp only [if_neg hi]
        refine Logged.bal_bind (mid := fun q => q.2.1.wt w u + q.2.2.wt w u + w kv.1 + m) ?_ fun q _ => ?_
        · intro q hq
          have := mergeInnerL_bal (w := w) (u := u) (m := m) hk q hq
          simp only at *
          omega
        · split <;>
          · refine Logged.bal_pure ?_
            simp only [DeleteResult.wt, Statistic.merges, Int.natCast_add, Int.natCast_one, e2]

/-! ## Removal: leaves -/

omit [Augmentation K V A] in
theorem relink_wt {s s' : Store K V A} {l : Leaf K V} {i : Nat} (h : relinkNext s l i = .ok s') :
    s'.wt w u = s.wt w u ∧ s'.inners = s.inners := by
  unfold relinkNext at h
  split at h
  · obtain ⟨nl, h1, h⟩ := bind_ok h
    cases h
    refine ⟨?_, rfl⟩
    rw [Store.wt_setLeaf h1, Leaf.setPrev_wt]
    omega
  · cases h
    exact ⟨rfl, rfl⟩

theorem rotRightLeafL_bal {s : Store K V A} {node : Inner K A} {slot idx : Nat} :
    (rotateRightForLeafL s node slot idx).Bal w u m (s.wt w u + node.wt w u)
      (fun q => q.2.1.wt w u + q.2.2.wt w u + w q.1.1) := by
  unfold rotateRightForLeafL
  refine Logged.bal_lift_bind fun li _ => Logged.bal_lift_bind fun ri _ =>
    Logged.bal_lift_bind fun left hleft => Logged.bal_guard <| Logged.bal_lift_bind fun q hq => ?_
  obtain ⟨kv, left'⟩ := q
  have e1 := Leaf.pop_wt (w := w) hq
  have e2 := Store.wt_setLeaf (w := w) (u := u) hleft left'
  refine Logged.bal_bind leafAugL_bal fun a _ => ?_
  simp only
  refine Logged.bal_bind (mid := fun n => s.wt w u + n.wt w u) ?_ fun n1 _ => ?_
  · intro n hn
    have := setAugL_bal (w := w) (u := u) (m := m) n hn
    simp only at *
    omega
  refine Logged.bal_emit_bind <| Logged.bal_lift_bind fun right hright =>
    Logged.bal_lift_bind fun q hq => ?_
  obtain ⟨dl, right'⟩ := q
  have e3 := Leaf.deleteWithPushFront_wt (w := w) hq
  have e4 := Store.wt_setLeaf (w := w) (u := u) hright right'
  refine Logged.bal_bind leafAugL_bal fun b _ => ?_
  simp only [wsum_cons, wsum_nil, Event.wt]
  refine Logged.bal_bind (mid := fun n => s.wt w u + n.wt w u + w kv.1) ?_ fun n2 _ => ?_
  · intro n hn
    have := setAugL_bal (w := w) (u := u) (m := m) n hn
    simp only at *
    omega
  refine Logged.bal_lift_bind fun q hq => Logged.bal_emit_bind (Logged.bal_pure ?_)
  obtain ⟨old, n3⟩ := q
  have e5 := Inner.setKey_wt (w := w) (u := u) hq
  simp only [wsum_cons, wsum_nil, Event.wt, Store.wt_cache]
  omega

theorem rotLeftLeafL_bal {s : Store K V A} {node : Inner K A} {slot idx : Nat} :
    (rotateLeftForLeafL s node slot idx).Bal w u m (s.wt w u + node.wt w u)
      (fun q => q.2.1.wt w u + q.2.2.wt w u + w q.1.1) := by
  unfold rotateLeftForLeafL
  refine Logged.bal_lift_bind fun li _ => Logged.bal_lift_bind fun ri _ =>
    Logged.bal_lift_bind fun left hleft => Logged.bal_guard <| Logged.bal_lift_bind fun q hq => ?_
  obtain ⟨kv, left'⟩ := q
  have e1 := Leaf.popFront_wt (w := w) hq
  have e2 := Store.wt_setLeaf (w := w) (u := u) hleft left'
  refine Logged.bal_bind leafAugL_bal fun a _ => ?_
  simp only
  refine Logged.bal_bind (mid := fun n => s.wt w u + n.wt w u) ?_ fun n1 _ => ?_
  · intro n hn
    have := setAugL_bal (w := w) (u := u) (m := m) n hn
    simp only at *
    omega
  refine Logged.bal_lift_bind fun first _ => Logged.bal_emit_bind <|
    Logged.bal_lift_bind fun right hright => Logged.bal_lift_bind fun q hq => ?_
  obtain ⟨dl, right'⟩ := q
  have e3 := Leaf.deleteWithPush_wt (w := w) hq
  have e4 := Store.wt_setLeaf (w := w) (u := u) hright right'
  refine Logged.bal_bind leafAugL_bal fun b _ => ?_
  simp only [wsum_cons, wsum_nil, Event.wt]
  refine Logged.bal_bind (mid := fun n => s.wt w u + n.wt w u + w first.1) ?_ fun n2 _ => ?_
  · intro n hn
    have := setAugL_bal (w := w) (u := u) (m := m) n hn
    simp only at *
    omega
  refine Logged.bal_lift_bind fun q hq => Logged.bal_emit_bind (Logged.bal_pure ?_)
  obtain ⟨old, n3⟩ := q
  have e5 := Inner.setKey_wt (w := w) (u := u) hq
  simp only [wsum_cons, wsum_nil, Event.wt, Store.wt_cache]
  omega

theorem mergeLeftLeafL_bal {s : Store K V A} {node : Inner K A} {slot idx : Nat} :
    (mergeLeafNodeLeftL s node slot idx).Bal w u m (s.wt w u + node.wt w u)
      (fun q => q.2.1.wt w u + q.2.2.wt w u + q.1.wt w) := by
  unfold mergeLeafNodeLeftL
  refine Logged.bal_lift_bind fun li _ => Logged.bal_lift_bind fun ri _ =>
    Logged.bal_lift_bind fun q hq => ?_
  obtain ⟨right, s1⟩ := q
  have e1 := (Store.takeLeaf_wt (w := w) (u := u) hq).1
  refine Logged.bal_lift_bind fun left hleft => Logged.bal_lift_bind fun q hq => ?_
  obtain ⟨kv, left'⟩ := q
  have e2 := Leaf.mergeRightDeleteFirst_wt (w := w) hq
  have e3 := Store.wt_setLeaf (w := w) (u := u) hleft left'
  refine Logged.bal_bind leafAugL_bal fun a _ => ?_
  simp only
  refine Logged.bal_bind (mid := fun n => s.wt w u + n.wt w u) ?_ fun n1 _ => ?_
  · intro n hn
    have := setAugL_bal (w := w) (u := u) (m := m) n hn
    simp only at *
    omega
  refine Logged.bal_lift_bind fun s2 hs2 => ?_
  have e4 := (relink_wt (w := w) (u := u) hs2).1
  refine Logged.bal_bind (mid := fun r => s.wt w u + r.2.2.wt w u + w r.2.1) ?_ fun q _ => ?_
  · intro n hn
    have := removeSlotL_bal (w := w) (u := u) (m := m) n hn
    simp only at *
    omega
  obtain ⟨ok, old, n2⟩ := q
  refine Logged.bal_emit_bind (Logged.bal_pure ?_)
  cases ok <;>
  · simp only [wsum_cons, wsum_nil, Event.wt, Store.wt_cache, DeleteResult.wt, if_true,
      Bool.false_eq_true, if_false]
    omega

theorem mergeRightLeafL_bal {s : Store K V A} {node : Inner K A} {slot idx : Nat} :
    (mergeLeafNodeWithRightL s node slot idx).Bal w u m (s.wt w u + node.wt w u)
      (fun q => q.2.1.wt w u + q.2.2.wt w u + q.1.wt w) := by
  unfold mergeLeafNodeWithRightL
  refine Logged.bal_lift_bind fun li _ => Logged.bal_lift_bind fun ri _ =>
    Logged.bal_lift_bind fun q hq => ?_
  obtain ⟨right, s1⟩ := q
  have e1 := (Store.takeLeaf_wt (w := w) (u := u) hq).1
  refine Logged.bal_lift_bind fun left hleft => Logged.bal_lift_bind fun q hq => ?_
  obtain ⟨kv, left0⟩ := q
  have e2 := Leaf.deleteAt_wt (w := w) hq
  refine Logged.bal_lift_bind fun left' hl' => ?_
  have e2' := Leaf.mergeRight_wt (w := w) hl'
  have e3 := Store.wt_setLeaf (w := w) (u := u) hleft left'
  refine Logged.bal_bind leafAugL_bal fun a _ => ?_
  simp only
  refine Logged.bal_bind (mid := fun n => (s1.setLeaf li left').wt w u + w kv.1 + n.wt w u) ?_ fun n1 _ => ?_
  · intro n hn
    have := setAugL_bal (w := w) (u := u) (m := m) n hn
    simp only at *
    omega
  refine Logged.bal_lift_bind fun s2 hs2 => ?_
  have e4 := (relink_wt (w := w) (u := u) hs2).1
  refine Logged.bal_bind (mid := fun r => s.wt w u + r.2.2.wt w u + w r.2.1) ?_ fun q _ => ?_
  · intro n hn
    have := removeSlotL_bal (w := w) (u := u) (m := m) n hn
    simp only at *
    omega
  obtain ⟨ok, old, n2⟩ := q
  refine Logged.bal_emit_bind (Logged.bal_pure ?_)
  cases ok <;>
  · simp only [wsum_cons, wsum_nil, Event.wt, Store.wt_cache, DeleteResult.wt, if_true,
      Bool.false_eq_true, if_false]
    omega

theorem handleLeafL_bal {s : Store K V A} {st : Statistic} {node : Inner K A} {i idx : Nat} :
    (handleLeafUnderSizeL s st node i idx).Bal w u m (s.wt w u + node.wt w u)
      (fun q => q.2.1.wt w u + q.2.2.2.wt w u + q.1.wt w + m * (q.2.2.1.merges - st.merges)) := by
  unfold handleLeafUnderSizeL
  refine Logged.bal_lift_bind fun ps _ => Logged.bal_lift_bind fun ns _ =>
    Logged.bal_lift_bind fun fx _ => ?_
  cases fx with
  | rotateRight => exact Logged.bal_bind rotRightLeafL_bal fun q _ => Logged.bal_pure (by simp [DeleteResult.wt, Statistic.merges])
  | rotateLeft => exact Logged.bal_bind rotLeftLeafL_bal fun q _ => Logged.bal_pure (by simp [DeleteResult.wt, Statistic.merges])
  | mergeLeft => exact Logged.bal_bind mergeLeftLeafL_bal fun q _ => Logged.bal_pure (by simp [DeleteResult.wt, Statistic.merges])
  | mergeRight => exact Logged.bal_bind mergeRightLeafL_bal fun q _ => Logged.bal_pure (by simp [DeleteResult.wt, Statistic.merges])

end
end
end Bpt
