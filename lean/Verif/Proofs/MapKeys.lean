import Verif.LawlessHistory
import Verif.Proofs.Ghost

/-!
# Renaming keys

The functions of `Model/Unordered.lean` look at keys only through the answers of the comparisons, so
they commute with any renaming `f` of the keys. Augmentations are forgotten on the way.
-/

namespace Bpt
variable {K L V A α β γ δ : Type}

/-- The result `y` is the result `x` renamed. -/
def Maps (m : α → β) (x : Res α) (y : Res β) : Prop := y = x.map m

namespace Maps

theorem pure {m : α → β} {a : α} {b : β} (h : b = m a) : Maps m (Pure.pure a) (Pure.pure b) := by
  rw [h]; rfl

theorem bind {m : α → β} {m' : γ → δ} {x : Res α} {y : Res β} {g : α → Res γ} {g' : β → Res δ}
    (h : Maps m x y) (hg : ∀ a, Maps m' (g a) (g' (m a))) : Maps m' (x >>= g) (y >>= g') := by
  unfold Maps at *
  rw [h]
  cases x with
  | error e => rfl
  | ok a => exact hg a

theorem same {x : Res α} : Maps (fun a => a) x x := by
  cases x <;> rfl

theorem ite {m : α → β} {c c' : Prop} [Decidable c] [Decidable c'] {x x' : Res α} {y y' : Res β}
    (hc : c' ↔ c) (h1 : Maps m x y) (h2 : Maps m x' y') :
    Maps m (if c then x else x') (if c' then y else y') := by
  by_cases h : c
  · rw [if_pos h, if_pos (hc.2 h)]; exact h1
  · rw [if_neg h, if_neg (fun h' => h (hc.1 h'))]; exact h2

theorem error {m : α → β} {e : Fault} : Maps m (.error e) (.error e) := rfl

theorem ok {m : α → β} {x : Res α} {y : Res β} {a : α} (h : Maps m x y) (hx : x = .ok a) :
    y = .ok (m a) := by
  rw [h, hx]; rfl

theorem congr {m m' : α → β} {x : Res α} {y : Res β} (h : Maps m x y) (hm : ∀ a, m a = m' a) :
    Maps m' x y := by
  have : m = m' := funext hm
  rw [← this]; exact h

end Maps

/-! ## Slices -/

theorem readAt_map (g : α → β) (l : List α) (i : Nat) : Maps g (readAt l i) (readAt (l.map g) i) := by
  unfold Maps readAt
  rw [List.getElem?_map]
  cases l[i]? <;> rfl

theorem sliceInsert_map (g : α → β) (l : List α) (i : Nat) (x : α) :
    Maps (List.map g) (sliceInsert l i x) (sliceInsert (l.map g) i (g x)) := by
  unfold Maps sliceInsert
  rw [List.length_map]
  split
  · simp [Except.map]
  · rfl

theorem sliceRemove_map (g : α → β) (l : List α) (i : Nat) :
    Maps (fun p => (g p.1, p.2.map g)) (sliceRemove l i) (sliceRemove (l.map g) i) := by
  unfold Maps sliceRemove
  rw [List.getElem?_map]
  cases l[i]? with
  | none => rfl
  | some a => simp [Except.map]

/-! ## Nodes -/

variable (f : K → L)

/-- An item with its key renamed. -/
def item (e : K × V) : L × V := (f e.1, e.2)

def Leaf.mapK (l : Leaf K V) : Leaf L V := ⟨l.data.map (item f), l.prev, l.next⟩

def Inner.mapK (n : Inner K A) : Inner L Unit := ⟨n.keys.map f, n.childs, n.augs.map (fun _ => ())⟩

def Store.mapK (s : Store K V A) : Store L V Unit :=
  ⟨s.inners.map (Option.map (Inner.mapK f)), s.leaves.map (Option.map (Leaf.mapK f)), s.cached⟩

def Tree.mapK (t : Tree K V A) : Tree L V Unit := ⟨t.root, (), t.len, t.store.mapK f, t.st⟩

variable {f}

@[simp] theorem Leaf.mapK_len (l : Leaf K V) : (l.mapK f).len = l.len := by simp [Leaf.mapK, Leaf.len]
@[simp] theorem Leaf.mapK_isFull (l : Leaf K V) : (l.mapK f).isFull = l.isFull := by
  simp [Leaf.isFull]
@[simp] theorem Leaf.mapK_ableToLend (l : Leaf K V) : (l.mapK f).ableToLend = l.ableToLend := by
  simp [Leaf.ableToLend]
@[simp] theorem Leaf.mapK_keys (l : Leaf K V) : (l.mapK f).keys = l.keys.map f := by
  simp [Leaf.mapK, Leaf.keys, item]
@[simp] theorem Leaf.mapK_prev (l : Leaf K V) : (l.mapK f).prev = l.prev := rfl
@[simp] theorem Leaf.mapK_next (l : Leaf K V) : (l.mapK f).next = l.next := rfl
@[simp] theorem Leaf.mapK_data (l : Leaf K V) : (l.mapK f).data = l.data.map (item f) := rfl
@[simp] theorem Inner.mapK_len (n : Inner K A) : (n.mapK f).len = n.len := by
  simp [Inner.mapK, Inner.len]
@[simp] theorem Inner.mapK_isFull (n : Inner K A) : (n.mapK f).isFull = n.isFull := by
  simp [Inner.isFull]
@[simp] theorem Inner.mapK_isEmpty (n : Inner K A) : (n.mapK f).isEmpty = n.isEmpty := by
  simp [Inner.isEmpty]
@[simp] theorem Inner.mapK_ableToLend (n : Inner K A) : (n.mapK f).ableToLend = n.ableToLend := by
  simp [Inner.ableToLend]

theorem Leaf.dataAt_map (l : Leaf K V) (i : Nat) :
    Maps (item f) (l.dataAt i) ((l.mapK f).dataAt i) := readAt_map _ _ _

theorem Leaf.tryDataAt_map (l : Leaf K V) (i : Nat) :
    (l.mapK f).tryDataAt i = (l.tryDataAt i).map (item f) := by
  simp [Leaf.tryDataAt, Leaf.mapK]

theorem Inner.childId_map (n : Inner K A) (i : Nat) :
    Maps (fun a => a) (n.childId i) ((n.mapK f).childId i) := Maps.same

theorem Inner.setAugmentation_map (n : Inner K A) (i : Nat) (a : A) :
    Maps (Inner.mapK f) (n.setAugmentation i a) ((n.mapK f).setAugmentation i ()) := by
  unfold Maps Inner.setAugmentation
  simp only [Inner.mapK, List.length_map]
  split
  · simp [Except.map, Inner.mapK, List.map_set]
  · rfl

theorem Inner.newFromIter_map (ks : List K) (cs : List NodeId) (as : List A) :
    Maps (Inner.mapK f) (Inner.newFromIter ks cs as)
      (Inner.newFromIter (ks.map f) cs (as.map (fun _ => ()))) := by
  unfold Maps Inner.newFromIter
  simp only [List.length_map]
  split
  · split <;> rfl
  · rfl

theorem Inner.insertAt_map (n : Inner K A) (i : Nat) (k : K) (c : NodeId) (a : A) :
    Maps (Inner.mapK f) (n.insertAt i k c a) ((n.mapK f).insertAt i (f k) c ()) := by
  unfold Inner.insertAt
  refine Maps.ite (by simp) Maps.error ?_
  refine Maps.bind (sliceInsert_map _ _ _ _) fun ks => ?_
  refine Maps.bind Maps.same fun cs => ?_
  exact Maps.bind (sliceInsert_map _ _ _ _) fun as => Maps.pure rfl

theorem Inner.split_map (n : Inner K A) (i : Nat) (k : K) (c : NodeId) (a : A) :
    Maps (fun p => (f p.1, p.2.1.mapK f, p.2.2.mapK f)) (n.split i k c a)
      ((n.mapK f).split i (f k) c ()) := by
  unfold Inner.split
  refine Maps.ite (by simp) Maps.error ?_
  refine Maps.ite Iff.rfl Maps.error ?_
  refine Maps.ite Iff.rfl ?_ (Maps.ite Iff.rfl ?_ ?_)
  · refine Maps.bind (readAt_map _ _ _) fun nk => ?_
    refine Maps.bind (m := List.map f) ?_ fun ks => ?_
    · simp only [Inner.mapK]; rw [← List.map_take]; exact sliceInsert_map _ _ _ _
    refine Maps.bind Maps.same fun cs => ?_
    refine Maps.bind (m := List.map (fun _ => ())) ?_ fun as => ?_
    · simp only [Inner.mapK]; rw [← List.map_take]; exact sliceInsert_map _ _ _ _
    exact Maps.pure (by simp [Inner.mapK])
  · refine Maps.bind (readAt_map _ _ _) fun nk => ?_
    exact Maps.pure (by simp [Inner.mapK])
  · exact Maps.pure (by simp [Inner.mapK])

theorem Inner.removeSlotWithRight_map (n : Inner K A) (i : Nat) :
    Maps (fun p => (p.1, f p.2.1, p.2.2.mapK f)) (n.removeSlotWithRight i)
      ((n.mapK f).removeSlotWithRight i) := by
  refine Maps.bind (sliceRemove_map _ _ _) fun ks => ?_
  refine Maps.bind Maps.same fun cs => ?_
  refine Maps.bind (sliceRemove_map _ _ _) fun as => ?_
  exact Maps.pure (by simp [Inner.mapK])

theorem Inner.mergeNext_map (n r : Inner K A) (k : K) :
    Maps (Inner.mapK f) (n.mergeNext k r) ((n.mapK f).mergeNext (f k) (r.mapK f)) := by
  unfold Inner.mergeNext
  refine Maps.ite (by simp) Maps.error (Maps.ite (by simp) Maps.error ?_)
  exact Maps.pure (by simp [Inner.mapK])

theorem Inner.pop_map (n : Inner K A) :
    Maps (fun p => ((f p.1.1, p.1.2.1, ()), p.2.mapK f)) n.pop (n.mapK f).pop := by
  unfold Inner.pop
  refine Maps.ite (by simp) Maps.error ?_
  rw [Inner.mapK_len]
  refine Maps.bind (readAt_map _ _ _) fun k => ?_
  refine Maps.bind Maps.same fun cs => ?_
  refine Maps.bind (readAt_map _ _ _) fun a => ?_
  exact Maps.pure (by simp [Inner.mapK])

theorem Inner.popFront_map (n : Inner K A) :
    Maps (fun p => ((f p.1.1, p.1.2.1, ()), p.2.mapK f)) n.popFront (n.mapK f).popFront := by
  refine Maps.bind (sliceRemove_map _ _ _) fun ks => ?_
  refine Maps.bind Maps.same fun cs => ?_
  refine Maps.bind (sliceRemove_map _ _ _) fun as => ?_
  exact Maps.pure (by simp [Inner.mapK])

theorem Inner.push_map (n : Inner K A) (k : K) (c : NodeId) (a : A) :
    Maps (Inner.mapK f) (n.push k c a) ((n.mapK f).push (f k) c ()) := by
  unfold Inner.push
  exact Maps.ite (by simp) (Maps.pure (by simp [Inner.mapK])) Maps.error

theorem Inner.pushFront_map (n : Inner K A) (k : K) (c : NodeId) (a : A) :
    Maps (Inner.mapK f) (n.pushFront k c a) ((n.mapK f).pushFront (f k) c ()) := by
  unfold Inner.pushFront
  exact Maps.ite (by simp) (Maps.pure (by simp [Inner.mapK])) Maps.error

theorem Inner.setKey_map (n : Inner K A) (i : Nat) (k : K) :
    Maps (fun p => (f p.1, p.2.mapK f)) (n.setKey i k) ((n.mapK f).setKey i (f k)) := by
  refine Maps.bind (readAt_map _ _ _) fun o => ?_
  exact Maps.pure (by simp [Inner.mapK, List.map_set])

theorem Leaf.setPrev_map (l : Leaf K V) (p : Option Nat) : (l.mapK f).setPrev p = (l.setPrev p).mapK f :=
  rfl

/-- The outcome of an insertion in a leaf, renamed. -/
def Leaf.UpsertResult.mapK (f : K → L) : Leaf.UpsertResult K V → Leaf.UpsertResult L V
  | .inserted => .inserted
  | .updated v => .updated v
  | .isFull i k v => .isFull i (f k) v

theorem Leaf.upsertAt_map (l : Leaf K V) (s : Slot) (k : K) (v : V) :
    Maps (fun p => (p.1.mapK f, p.2.mapK f)) (l.upsertAt s k v) ((l.mapK f).upsertAt s (f k) v) := by
  cases s with
  | found i =>
    refine Maps.bind (Leaf.dataAt_map _ _) fun kv => ?_
    exact Maps.pure (by simp [Leaf.mapK, item, Leaf.UpsertResult.mapK, List.map_set])
  | vacant i =>
    refine Maps.ite (by simp) ?_ (Maps.pure rfl)
    refine Maps.bind (sliceInsert_map (item f) l.data i (k, v)) fun d => ?_
    exact Maps.pure rfl

theorem Leaf.splitNewLeaf_map (l : Leaf K V) (i : Nat) (kv : K × V) (a b : Nat) :
    Maps (fun p => (p.1.mapK f, p.2.mapK f)) (l.splitNewLeaf i kv a b)
      ((l.mapK f).splitNewLeaf i (item f kv) a b) := by
  unfold Leaf.splitNewLeaf
  refine Maps.ite (by simp) Maps.error (Maps.ite Iff.rfl ?_ ?_)
  · refine Maps.bind (m := List.map (item f)) ?_ fun d => Maps.pure (by simp [Leaf.mapK])
    rw [Leaf.mapK_data, ← List.map_take]; exact sliceInsert_map _ _ _ _
  · refine Maps.bind (m := List.map (item f)) ?_ fun d => Maps.pure (by simp [Leaf.mapK])
    rw [Leaf.mapK_data, ← List.map_drop]; exact sliceInsert_map _ _ _ _

theorem Leaf.deleteAt_map (l : Leaf K V) (i : Nat) :
    Maps (fun p => (item f p.1, p.2.mapK f)) (l.deleteAt i) ((l.mapK f).deleteAt i) :=
  Maps.bind (sliceRemove_map _ _ _) fun _ => Maps.pure rfl

/-- The outcome of a deletion in a leaf, renamed. -/
def Leaf.DeleteResult.mapK (f : K → L) : Leaf.DeleteResult K V → Leaf.DeleteResult L V
  | .done kv => .done (item f kv)
  | .underSize i => .underSize i

theorem Leaf.tryDeleteAt_map (l : Leaf K V) (i : Nat) :
    Maps (fun p => (p.1.mapK f, p.2.mapK f)) (l.tryDeleteAt i) ((l.mapK f).tryDeleteAt i) := by
  unfold Leaf.tryDeleteAt
  refine Maps.ite (by simp) ?_ (Maps.pure rfl)
  exact Maps.bind (sliceRemove_map _ _ _) fun _ => Maps.pure rfl

theorem Leaf.pop_map (l : Leaf K V) :
    Maps (fun p => (item f p.1, p.2.mapK f)) l.pop (l.mapK f).pop := by
  unfold Leaf.pop
  refine Maps.ite (by simp) Maps.error ?_
  rw [Leaf.mapK_len]
  exact Maps.bind (sliceRemove_map _ _ _) fun _ => Maps.pure rfl

theorem Leaf.popFront_map (l : Leaf K V) :
    Maps (fun p => (item f p.1, p.2.mapK f)) l.popFront (l.mapK f).popFront := by
  unfold Leaf.popFront
  refine Maps.ite (by simp) Maps.error ?_
  exact Maps.bind (sliceRemove_map _ _ _) fun _ => Maps.pure rfl

theorem Leaf.deleteWithPush_map (l : Leaf K V) (i : Nat) (kv : K × V) :
    Maps (fun p => (item f p.1, p.2.mapK f)) (l.deleteWithPush i kv)
      ((l.mapK f).deleteWithPush i (item f kv)) :=
  Maps.bind (sliceRemove_map _ _ _) fun _ => Maps.pure (by simp [Leaf.mapK])

theorem Leaf.deleteWithPushFront_map (l : Leaf K V) (i : Nat) (kv : K × V) :
    Maps (fun p => (item f p.1, p.2.mapK f)) (l.deleteWithPushFront i kv)
      ((l.mapK f).deleteWithPushFront i (item f kv)) := by
  unfold Leaf.deleteWithPushFront
  refine Maps.ite Iff.rfl Maps.error ?_
  exact Maps.bind (readAt_map _ _ _) fun _ => Maps.pure (by simp [Leaf.mapK])

theorem Leaf.extend_map (l : Leaf K V) (xs : List (K × V)) :
    Maps (Leaf.mapK f) (l.extend xs) ((l.mapK f).extend (xs.map (item f))) := by
  unfold Leaf.extend
  exact Maps.ite (by simp) (Maps.pure (by simp [Leaf.mapK])) Maps.error

theorem Leaf.mergeRightDeleteFirst_map (l r : Leaf K V) (i : Nat) :
    Maps (fun p => (item f p.1, p.2.mapK f)) (l.mergeRightDeleteFirst i r)
      ((l.mapK f).mergeRightDeleteFirst i (r.mapK f)) := by
  refine Maps.bind (readAt_map _ _ _) fun kv => ?_
  refine Maps.bind (m := Leaf.mapK f) ?_ fun l => ?_
  · rw [Leaf.mapK_data, ← List.map_take]; exact Leaf.extend_map _ _
  refine Maps.bind (m := Leaf.mapK f) ?_ fun l => Maps.pure rfl
  rw [Leaf.mapK_data, ← List.map_drop]; exact Leaf.extend_map _ _

theorem Leaf.mergeRight_map (l r : Leaf K V) :
    Maps (Leaf.mapK f) (l.mergeRight r) ((l.mapK f).mergeRight (r.mapK f)) :=
  Maps.bind (Leaf.extend_map _ _) fun _ => Maps.pure rfl

/-! ## The store -/

theorem Store.getInner_map (s : Store K V A) (i : Nat) :
    Maps (Inner.mapK f) (s.getInner i) ((s.mapK f).getInner i) := by
  unfold Maps Store.getInner Store.mapK
  simp only [List.getElem?_map]
  rcases s.inners[i]? with _ | _ | n <;> rfl

theorem Store.getLeaf_map (s : Store K V A) (i : Nat) :
    Maps (Leaf.mapK f) (s.getLeaf i) ((s.mapK f).getLeaf i) := by
  unfold Maps Store.getLeaf Store.mapK
  simp only [List.getElem?_map]
  rcases s.leaves[i]? with _ | _ | n <;> rfl

theorem Store.tryGetLeaf_map (s : Store K V A) (i : Nat) :
    (s.mapK f).tryGetLeaf i = (s.tryGetLeaf i).map (Leaf.mapK f) := by
  unfold Store.tryGetLeaf Store.mapK
  simp only [List.getElem?_map]
  rcases s.leaves[i]? with _ | _ | n <;> rfl

theorem Store.takeInner_map (s : Store K V A) (i : Nat) :
    Maps (fun p => (p.1.mapK f, p.2.mapK f)) (s.takeInner i) ((s.mapK f).takeInner i) := by
  unfold Maps Store.takeInner
  simp only [Store.mapK, List.getElem?_map]
  rcases s.inners[i]? with _ | _ | n <;> simp [Except.map, List.map_set]

theorem Store.takeLeaf_map (s : Store K V A) (i : Nat) :
    Maps (fun p => (p.1.mapK f, p.2.mapK f)) (s.takeLeaf i) ((s.mapK f).takeLeaf i) := by
  unfold Maps Store.takeLeaf
  simp only [Store.mapK, List.getElem?_map]
  rcases s.leaves[i]? with _ | _ | n <;> simp [Except.map, List.map_set]

@[simp] theorem Store.setInner_map (s : Store K V A) (i : Nat) (n : Inner K A) :
    (s.mapK f).setInner i (n.mapK f) = (s.setInner i n).mapK f := by
  simp [Store.setInner, Store.mapK, List.map_set]

@[simp] theorem Store.setLeaf_map (s : Store K V A) (i : Nat) (l : Leaf K V) :
    (s.mapK f).setLeaf i (l.mapK f) = (s.setLeaf i l).mapK f := by
  simp [Store.setLeaf, Store.mapK, List.map_set]

@[simp] theorem Store.cacheLeaf_map (s : Store K V A) (i : Nat) :
    (s.mapK f).cacheLeaf i = (s.cacheLeaf i).mapK f := rfl

@[simp] theorem Store.addInner_map (s : Store K V A) (n : Inner K A) :
    (s.mapK f).addInner (n.mapK f) = ((s.addInner n).1.mapK f, (s.addInner n).2) := by
  simp [Store.addInner, Store.mapK]

@[simp] theorem Store.reserveLeaf_map (s : Store K V A) :
    (s.mapK f).reserveLeaf = (s.reserveLeaf.1.mapK f, s.reserveLeaf.2) := by
  simp [Store.reserveLeaf, Store.mapK]

theorem Store.assignLeaf_map (s : Store K V A) (i : Nat) (l : Leaf K V) :
    Maps (Store.mapK f) (s.assignLeaf i l) ((s.mapK f).assignLeaf i (l.mapK f)) := by
  unfold Store.assignLeaf
  exact Maps.ite (by simp [Store.mapK]) (Maps.pure (Store.setLeaf_map s i l)) Maps.error

@[simp] theorem Store.mapK_fuel (s : Store K V A) : (s.mapK f).fuel = s.fuel := by
  simp [Store.fuel, Store.mapK]

theorem newAugmentation_map [Augmentation K V A] (s : Store K V A) (i : NodeId) :
    Maps (fun _ => ()) (newAugmentationForId s i) (newAugmentationForId (s.mapK f) i) := by
  cases i with
  | inner i => exact Maps.bind (Store.getInner_map s i) fun _ => Maps.pure rfl
  | leaf i => exact Maps.bind (Store.getLeaf_map s i) fun _ => Maps.pure rfl

/-! ## Descents -/

theorem descend_map {σ τ ε : Type} (s : Store K V A) {step : σ → Nat → Inner K A → Res (ε ⊕ (σ × NodeId))}
    {step' : τ → Nat → Inner L Unit → Res (ε ⊕ (τ × NodeId))} (m : σ → τ)
    (h : ∀ st i n, Maps (Sum.map id (fun p => (m p.1, p.2))) (step st i n) (step' (m st) i (n.mapK f)))
    (fuel : Nat) (st : σ) (root : NodeId) :
    Maps (Sum.map id (fun p => (m p.1, p.2))) (descend s step fuel st root)
      (descend (s.mapK f) step' fuel (m st) root) := by
  induction fuel generalizing st root with
  | zero => cases root <;> rfl
  | succ n ih =>
    cases root with
    | leaf i => exact Maps.pure rfl
    | inner i =>
      refine Maps.bind (Store.getInner_map s i) fun node => ?_
      refine Maps.bind (h st i node) fun r => ?_
      rcases r with b | ⟨st', c⟩
      · exact Maps.pure rfl
      · exact ih st' c

theorem descendLeaf_map {σ τ : Type} (s : Store K V A) {step : σ → Nat → Inner K A → Res (σ × NodeId)}
    {step' : τ → Nat → Inner L Unit → Res (τ × NodeId)} (m : σ → τ)
    (h : ∀ st i n, Maps (fun p => (m p.1, p.2)) (step st i n) (step' (m st) i (n.mapK f)))
    (st : σ) (root : NodeId) :
    Maps (fun p => (m p.1, p.2)) (descendLeaf s step st root)
      (descendLeaf (s.mapK f) step' (m st) root) := by
  unfold descendLeaf
  rw [Store.mapK_fuel]
  refine Maps.bind (descend_map s m (fun st i n => ?_) s.fuel st root) fun r => ?_
  · exact Maps.bind (h st i n) fun r => Maps.pure rfl
  · rcases r with e | r
    · exact e.elim
    · exact Maps.pure rfl

end Bpt
