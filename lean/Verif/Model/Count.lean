import Verif.LawlessHistory

/-!
# Counting key comparisons

The functions of `Model/Unordered.lean` again, each comparison of keys now being counted. The standard
library makes one call of `cmp` per round of its binary search; `lt`, `gt` and `eq` on keys count as one
comparison each.
-/

namespace Bpt
variable {K V A : Type}

/-- A program with the number of key comparisons it makes. -/
structure Counted (α : Type) where
  cost : Nat
  result : Res α

namespace Counted
variable {α β : Type}

instance : Monad Counted where
  pure a := ⟨0, .ok a⟩
  bind x f := match x.result with
    | .ok a => ⟨x.cost + (f a).cost, (f a).result⟩
    | .error e => ⟨x.cost, .error e⟩

/-- Code that compares no keys. -/
instance : MonadLift Res Counted where
  monadLift x := ⟨0, x⟩

/-- One comparison, answered `a`. -/
def ask (a : α) : Counted α := ⟨1, .ok a⟩

end Counted

/-- The loop of `binary_search_by` since Rust 1.82, see `halvingLoopU`. -/
def halvingLoopC (f : Nat → K → Ordering) (keys : List K) :
    Nat → Nat → Nat → Nat → Counted (Nat × Nat)
  | 0, _, _, _ => (.error .fuel : Res (Nat × Nat))
  | n + 1, j, base, size =>
    if 1 < size then do
      let half := size / 2
      let mid := base + half
      let x ← readAt keys mid
      let a ← Counted.ask (f j x)
      halvingLoopC f keys n (j + 1) (if a = .gt then base else mid) (size - half)
    else return (j, base)

/-- `binary_search_by` since Rust 1.82, see `halvingSearchU`. -/
def halvingSearchC (f : Nat → K → Ordering) (keys : List K) : Counted Slot :=
  if keys.length = 0 then return .vacant 0
  else do
    let (j, base) ← halvingLoopC f keys keys.length 0 0 keys.length
    let x ← readAt keys base
    let a ← Counted.ask (f j x)
    match a with
    | .eq => return .found base
    | .lt => return .vacant (base + 1)
    | .gt => return .vacant base

/-- The loop of `binary_search_by` before Rust 1.82, see `earlyLoopU`. -/
def earlyLoopC (f : Nat → K → Ordering) (keys : List K) : Nat → Nat → Nat → Nat → Counted Slot
  | 0, _, _, _ => (.error .fuel : Res Slot)
  | n + 1, j, left, right =>
    if left < right then do
      let mid := left + (right - left) / 2
      let x ← readAt keys mid
      let a ← Counted.ask (f j x)
      match a with
      | .lt => earlyLoopC f keys n (j + 1) (mid + 1) right
      | .gt => earlyLoopC f keys n (j + 1) left mid
      | .eq => return .found mid
    else return .vacant left

/-- `binary_search_by_key` as called at leaf_node.rs:316 and inner_node.rs:210. -/
def searchC (early : Bool) (f : Nat → K → Ordering) (keys : List K) : Counted Slot :=
  if early then earlyLoopC f keys (keys.length + 1) 0 0 keys.length else halvingSearchC f keys

/-- `locate_child`, src/tree/inner_node.rs:205-222. -/
def Inner.locateChildC (o : Answers K) (depth : Nat) (n : Inner K A) : Counted (Nat × NodeId) := do
  match ← searchC o.early (o.inner depth) n.keys with
  | .vacant idx =>
    let c ← n.childId idx
    return (idx, c)
  | .found idx =>
    let c ← n.childId (idx + 1)
    return (idx + 1, c)

/-- `locate_slot`, src/tree/leaf_node.rs:311-317. -/
def Leaf.locateSlotC (o : Answers K) (l : Leaf K V) : Counted Slot := searchC o.early o.leaf l.keys

/-- `locate_slot_with_value`, src/tree/leaf_node.rs:320-341. -/
def Leaf.locateSlotWithValueC (o : Answers K) (l : Leaf K V) : Counted (Nat × Option V) := do
  match ← l.locateSlotC o with
  | .found i =>
    let kv ← l.dataAt i
    return (i, some kv.2)
  | .vacant i => return (i, none)

/-- `in_range`, src/tree/leaf_node.rs:106-123. -/
def Leaf.inRangeC (o : Answers K) (i : Nat) (l : Leaf K V) : Counted Bool := do
  let isLtStart ← (match l.prev with
    | some _ => do
      let kv ← l.dataAt 0
      Counted.ask (o.lt i kv.1)
    | none => return false : Counted Bool)
  if isLtStart then
    return false
  let isGtEnd ← (match l.next with
    | some _ => do
      if l.len = 0 then (.error .panic : Res Unit)
      let kv ← l.dataAt (l.len - 1)
      Counted.ask (o.lt (i + 1) kv.1)
    | none => return false : Counted Bool)
  return !isGtEnd

/-- `try_cache`, src/tree/node_stores/vec_backed.rs:229-246. -/
def Store.tryCacheC (o : Answers K) (s : Store K V A) : Counted (Option Nat) :=
  match s.cached with
  | none => return none
  | some id =>
    match s.tryGetLeaf id with
    | none => return none
    | some l => do
      let b ← l.inRangeC o 0
      return if b then some id else none

/-- The shape of the root-to-leaf loops, see `descend`. -/
def descendC {σ : Type} (s : Store K V A) (step : σ → Nat → Inner K A → Counted (σ × NodeId)) :
    Nat → σ → NodeId → Counted (σ × Nat)
  | _, st, .leaf i => return (st, i)
  | 0, _, .inner _ => (.error .fuel : Res (σ × Nat))
  | fuel + 1, st, .inner i => do
    let node ← s.getInner i
    let (st', c) ← step st i node
    descendC s step fuel st' c

/-- `insert_leaf`, src/tree/mod.rs:311-341. -/
def insertLeafC (o : Answers K) (s : Store K V A) (id : Nat) (k : K) (v : V) :
    Counted (Store K V A × InsertResult K V) := do
  let leaf ← s.getLeaf id
  let slot ← leaf.locateSlotC o
  insertLeafAt s id leaf slot k v

/-- The descents that keep a visit stack: `insert_inner` (src/tree/mod.rs:231-244) and `key_to_ref`
(506-532). -/
def stackStepC (o : Answers K) (st : List StackEntry) (i : Nat) (n : Inner K A) :
    Counted (List StackEntry × NodeId) := do
  let (idx, c) ← n.locateChildC o st.length
  let st ← pushStack st (i, idx, c)
  return (st, c)

/-- `descend_insert`, src/tree/mod.rs:213-223, with `insert_inner` (225-296). -/
def descendInsertC [Augmentation K V A] (o : Answers K) (s : Store K V A) (nodeId : NodeId) (k : K)
    (v : V) : Counted (Store K V A × InsertResult K V) :=
  match nodeId with
  | .inner id => do
    let (stack, leafId) ← descendC s (stackStepC o) s.fuel [] (.inner id)
    let (s, r) ← insertLeafC o s leafId k v
    insertAscend s stack r
  | .leaf id => insertLeafC o s id k v

/-- `BPlusTree::insert`, src/tree/mod.rs:156-197. -/
def Tree.insertC [Augmentation K V A] (o : Answers K) (t : Tree K V A) (k : K) (v : V) :
    Counted (Option V × Tree K V A) := do
  let (s, r) ← descendInsertC o t.store t.root k v
  t.finishInsert s r

/-- `key_to_ref`, src/tree/mod.rs:506-532. -/
def Tree.keyToRefC (o : Answers K) (t : Tree K V A) : Counted (Option EntryRef) := do
  let (stack, leafId) ← descendC t.store (stackStepC o) t.store.fuel [] t.root
  let l ← t.store.getLeaf leafId
  match ← l.locateSlotC o with
  | .found idx => return some ⟨stack, leafId, idx⟩
  | .vacant _ => return none

/-- `remove`, src/tree/mod.rs:498-504, with `remove_impl` (src/tree/tree_remove.rs:8-16). The fix-up
compares no keys. -/
def Tree.removeC [Augmentation K V A] (o : Answers K) (t : Tree K V A) :
    Counted (Option V × Tree K V A) := do
  match ← t.keyToRefC o with
  | none => return (none, t)
  | some e =>
    let (kv, t) ← (t.removeByRef e : Res _)
    return (some kv.2, t)

/-- One step of the descents by key without a stack. -/
def locateStepC (o : Answers K) (d : Nat) (_ : Nat) (n : Inner K A) : Counted (Nat × NodeId) := do
  let (_, c) ← n.locateChildC o d
  return (d + 1, c)

/-- `find_descend` up to the cache write, src/tree/mod.rs:418-433. -/
def findDescendLeafC (o : Answers K) (s : Store K V A) (root : NodeId) : Counted Nat := do
  let (_, leafId) ← descendC s (locateStepC o) s.fuel 0 root
  return leafId

/-- `find_in_leaf`, src/tree/mod.rs:435-442. -/
def findInLeafC (o : Answers K) (s : Store K V A) (leafId : Nat) : Counted (Option V) := do
  let l ← s.getLeaf leafId
  let (_, v) ← l.locateSlotWithValueC o
  return v

/-- `BPlusTree::get`, src/tree/mod.rs:344-354. -/
def Tree.getC (o : Answers K) (t : Tree K V A) : Counted (Option V × Tree K V A) := do
  match ← t.store.tryCacheC o with
  | some leafId =>
    let v ← findInLeafC o t.store leafId
    return (v, t)
  | none =>
    let leafId ← findDescendLeafC o t.store t.root
    let s := t.store.cacheLeaf leafId
    let v ← findInLeafC o s leafId
    return (v, { t with store := s })

/-- `locate_slot_mut` (src/tree/leaf_node.rs:343-364), then a write through the reference. -/
def updateInLeafC (o : Answers K) (s : Store K V A) (leafId : Nat) (f : V → V) :
    Counted (Option V × Store K V A) := do
  let l ← s.getLeaf leafId
  match ← l.locateSlotC o with
  | .found idx =>
    let kv ← l.dataAt idx
    return (some kv.2, s.setLeaf leafId { l with data := l.data.set idx (kv.1, f kv.2) })
  | .vacant _ => return (none, s)

/-- `BPlusTree::get_mut`, src/tree/mod.rs:357-372, followed by applying `f` to the value. -/
def Tree.getMutC (o : Answers K) (t : Tree K V A) (f : V → V) : Counted (Option V × Tree K V A) := do
  match ← t.store.tryCacheC o with
  | some leafId =>
    let (v, s) ← updateInLeafC o t.store leafId f
    return (v, { t with store := s })
  | none =>
    let leafId ← findDescendLeafC o t.store t.root
    let s := t.store.cacheLeaf leafId
    let (v, s) ← updateInLeafC o s leafId f
    return (v, { t with store := s })

/-- `BPlusTree::locate_leaf`, src/tree/mod.rs:583-607. -/
def Tree.locateLeafC (o : Answers K) (t : Tree K V A) : Counted Nat := do
  match ← t.store.tryCacheC o with
  | some leafId => return leafId
  | none => findDescendLeafC o t.store t.root

/-- `Cursor::locate_leaf`, src/tree/cursor.rs:210-225. -/
def Cursor.locateLeafC (o : Answers K) (c : Cursor K) (t : Tree K V A) :
    Counted (Nat × Leaf K V) := do
  let hit ← (match t.store.tryGetLeaf c.leafIdHint with
    | some leaf => do
      let b ← leaf.inRangeC o 2
      return if b then some leaf else none
    | none => return none : Counted (Option (Leaf K V)))
  match hit with
  | some leaf => return (c.leafIdHint, leaf)
  | none =>
    let leafId ← t.locateLeafC o
    let leaf ← t.store.getLeaf leafId
    return (leafId, leaf)

/-- The test of the offset hint, src/tree/cursor.rs:95-96, 150-151, 196-200. -/
def Cursor.hintHitsC (o : Answers K) (c : Cursor K) (leaf : Leaf K V) : Counted Bool :=
  match leaf.tryDataAt c.offsetHint with
  | some kv => Counted.ask (o.eq kv.1)
  | none => return false

/-- The choice of the previous entry in `prev_with_value`, src/tree/cursor.rs:95-121. -/
def Cursor.prevPosC (o : Answers K) (c : Cursor K) (t : Tree K V A) (leaf : Leaf K V) :
    Counted (Option (Nat × Leaf K V)) := do
  let hit ← c.hintHitsC o leaf
  if hit then
    if 0 < c.offsetHint then return some (c.offsetHint - 1, leaf)
    else prevLeafEnd t leaf
  else
    let slot ← leaf.locateSlotC o
    let offset := match slot with
      | .found i => i
      | .vacant i => i
    if 0 < offset then return some (offset - 1, leaf)
    else prevLeafEnd t leaf

/-- `Cursor::prev_with_value`, src/tree/cursor.rs:86-132. -/
def Cursor.prevWithValueC (o : Answers K) (c : Cursor K) (t : Tree K V A) :
    Counted (Option (Cursor K × V)) := do
  let (leafId, leaf) ← c.locateLeafC o t
  match ← c.prevPosC o t leaf with
  | none => return none
  | some (offset, leaf) =>
    let kv ← leaf.dataAt offset
    return some (⟨kv.1, leafId, offset⟩, kv.2)

/-- The choice of the next offset in `next_with_value`, src/tree/cursor.rs:150-159. -/
def Cursor.nextOffsetC (o : Answers K) (c : Cursor K) (leaf : Leaf K V) : Counted Nat := do
  let hit ← c.hintHitsC o leaf
  if hit then return c.offsetHint + 1
  else
    let (offset, value) ← leaf.locateSlotWithValueC o
    match value with
    | some _ => return offset + 1
    | none => return offset

/-- `Cursor::next_with_value`, src/tree/cursor.rs:141-185. -/
def Cursor.nextWithValueC (o : Answers K) (c : Cursor K) (t : Tree K V A) :
    Counted (Option (Cursor K × V)) := do
  let (leafId, leaf) ← c.locateLeafC o t
  let nextOffset ← c.nextOffsetC o leaf
  forwardFrom t leafId leaf nextOffset

/-- `Cursor::value`, src/tree/cursor.rs:193-207. -/
def Cursor.valueC (o : Answers K) (c : Cursor K) (t : Tree K V A) : Counted (Option V) := do
  let (_, leaf) ← c.locateLeafC o t
  let hit ← c.hintHitsC o leaf
  match leaf.tryDataAt c.offsetHint, hit with
  | some kv, true => return some kv.2
  | _, _ =>
    let (_, v) ← leaf.locateSlotWithValueC o
    return v

/-- `get_cursor`, src/tree/mod.rs:637-660. -/
def Tree.getCursorC (o : Answers K) (t : Tree K V A) (k : K) :
    Counted (Option (Cursor K × Option V)) := do
  let leafId ← findDescendLeafC o t.store t.root
  let leaf ← t.store.getLeaf leafId
  let (idx, v) ← leaf.locateSlotWithValueC o
  return some (⟨k, leafId, idx⟩, v)

/-- A call on the tree with the number of its key comparisons. -/
def Tree.ucallC [Augmentation K V A] (t : Tree K V A) (o : Answers K) :
    UCall K V → Counted (Answer K V × Tree K V A)
  | .insert k v => do let (r, t) ← t.insertC o k v; return (.value r, t)
  | .remove => do let (r, t) ← t.removeC o; return (.value r, t)
  | .get => do let (r, t) ← t.getC o; return (.value r, t)
  | .getMut f => do let (r, t) ← t.getMutC o f; return (.value r, t)
  | .cursorNext c => do
    let r ← c.nextWithValueC o t
    return (.entry (r.map (fun p => (p.1.k, p.2))), t)
  | .cursorPrev c => do
    let r ← c.prevWithValueC o t
    return (.entry (r.map (fun p => (p.1.k, p.2))), t)
  | .cursorValue c => do let r ← c.valueC o t; return (.value r, t)
  | .getCursor k => do
    match ← t.getCursorC o k with
    | some (c, v) => return (.keyValue c.k v, t)
    | none => return (.done, t)
  | c => (t.ucall o c : Res _)

end Bpt
