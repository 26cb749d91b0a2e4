import Verif.Model.Remove
import Verif.Model.Cursor
import Verif.Model.Iter

/-!
# The tree with arbitrary comparisons

`Ord`, `PartialOrd`, `PartialEq` and `Borrow` are safe traits: an implementation may violate every law
and answer differently each time it is asked. Here the functions that compare keys are written again
with the answers of the comparisons as an argument; everything else is shared with the rest of the
model. The argument of a call (`&Q` in the code) is only ever compared with stored keys, so the
answers stand for it.
-/

namespace Bpt
variable {K V A : Type}

/-- The answers of the user's comparisons during one call.
`early`: which of the two loops of the standard library's binary search is in use.
`inner d j x`: answer of the `j`-th comparison in the search in the `d`-th inner node on the way down,
asked for stored key `x` (`x.cmp(k)`).
`leaf j x`: the same for the search in a leaf.
`lt i x`: answer of the `i`-th test of `in_range` (`k.lt(x)` or `k.gt(x)`).
`eq x`: answer of `x.eq(&self.k)` in the cursor functions. -/
structure Answers (K : Type) where
  early : Bool
  inner : Nat → Nat → K → Ordering
  leaf : Nat → K → Ordering
  lt : Nat → K → Bool
  eq : K → Bool

/-- The loop of `binary_search_by` since Rust 1.82 with answers `f`; `get_unchecked` out of range is
undefined behaviour. The first argument bounds the number of rounds. -/
def halvingLoopU (f : Nat → K → Ordering) (keys : List K) : Nat → Nat → Nat → Nat → Res (Nat × Nat)
  | 0, _, _, _ => .error .fuel
  | n + 1, j, base, size =>
    if 1 < size then do
      let half := size / 2
      let mid := base + half
      let x ← readAt keys mid
      halvingLoopU f keys n (j + 1) (if f j x = .gt then base else mid) (size - half)
    else return (j, base)

/-- `binary_search_by` since Rust 1.82. -/
def halvingSearchU (f : Nat → K → Ordering) (keys : List K) : Res Slot :=
  if keys.length = 0 then return .vacant 0
  else do
    let (j, base) ← halvingLoopU f keys keys.length 0 0 keys.length
    let x ← readAt keys base
    match f j x with
    | .eq => return .found base
    | .lt => return .vacant (base + 1)
    | .gt => return .vacant base

/-- The loop of `binary_search_by` before Rust 1.82. The first argument bounds the number of
rounds. -/
def earlyLoopU (f : Nat → K → Ordering) (keys : List K) : Nat → Nat → Nat → Nat → Res Slot
  | 0, _, _, _ => .error .fuel
  | n + 1, j, left, right =>
    if left < right then do
      let mid := left + (right - left) / 2
      let x ← readAt keys mid
      match f j x with
      | .lt => earlyLoopU f keys n (j + 1) (mid + 1) right
      | .gt => earlyLoopU f keys n (j + 1) left mid
      | .eq => return .found mid
    else return .vacant left

/-- `binary_search_by_key` as called at leaf_node.rs:316 and inner_node.rs:210. -/
def searchU (early : Bool) (f : Nat → K → Ordering) (keys : List K) : Res Slot :=
  if early then earlyLoopU f keys (keys.length + 1) 0 0 keys.length else halvingSearchU f keys

/-- `locate_child`, src/tree/inner_node.rs:205-222. -/
def Inner.locateChildU (o : Answers K) (depth : Nat) (n : Inner K A) : Res (Nat × NodeId) := do
  match ← searchU o.early (o.inner depth) n.keys with
  | .vacant idx =>
    let c ← n.childId idx
    return (idx, c)
  | .found idx =>
    let c ← n.childId (idx + 1)
    return (idx + 1, c)

/-- `locate_slot`, src/tree/leaf_node.rs:311-317. -/
def Leaf.locateSlotU (o : Answers K) (l : Leaf K V) : Res Slot := searchU o.early o.leaf l.keys

/-- `locate_slot_with_value`, src/tree/leaf_node.rs:320-341. -/
def Leaf.locateSlotWithValueU (o : Answers K) (l : Leaf K V) : Res (Nat × Option V) := do
  match ← l.locateSlotU o with
  | .found i =>
    let kv ← l.dataAt i
    return (i, some kv.2)
  | .vacant i => return (i, none)

/-- `in_range`, src/tree/leaf_node.rs:106-123; its two tests are numbered `i` and `i + 1`. -/
def Leaf.inRangeU (o : Answers K) (i : Nat) (l : Leaf K V) : Res Bool := do
  let isLtStart ← (match l.prev with
    | some _ => do
      let kv ← l.dataAt 0
      return o.lt i kv.1
    | none => return false : Res Bool)
  if isLtStart then
    return false
  let isGtEnd ← (match l.next with
    | some _ => do
      if l.len = 0 then .error .panic
      let kv ← l.dataAt (l.len - 1)
      return o.lt (i + 1) kv.1
    | none => return false : Res Bool)
  return !isGtEnd

/-- `try_cache`, src/tree/node_stores/vec_backed.rs:229-246. -/
def Store.tryCacheU (o : Answers K) (s : Store K V A) : Res (Option Nat) :=
  match s.cached with
  | none => return none
  | some id =>
    match s.tryGetLeaf id with
    | none => return none
    | some l => do
      let b ← l.inRangeU o 0
      return if b then some id else none

/-- `try_upsert` once the slot is known, src/tree/leaf_node.rs:213-234. -/
def Leaf.upsertAt (l : Leaf K V) (slot : Slot) (k : K) (v : V) :
    Res (Leaf K V × Leaf.UpsertResult K V) :=
  match slot with
  | .found idx => do
    let kv ← l.dataAt idx
    return ({ l with data := l.data.set idx (kv.1, v) }, .updated kv.2)
  | .vacant idx =>
    if !l.isFull then do
      let d ← sliceInsert l.data idx (k, v)
      return ({ l with data := d }, .inserted)
    else
      return (l, .isFull idx k v)

section Aug
variable [Augmentation K V A]

omit [Augmentation K V A] in
/-- `insert_leaf` once the slot is known, src/tree/mod.rs:311-341. -/
def insertLeafAt (s : Store K V A) (id : Nat) (leaf : Leaf K V) (slot : Slot) (k : K) (v : V) :
    Res (Store K V A × InsertResult K V) := do
  match ← leaf.upsertAt slot k v with
  | (leaf', .inserted) => return ((s.setLeaf id leaf').cacheLeaf id, .inserted)
  | (leaf', .updated v0) => return (s.setLeaf id leaf', .updated v0)
  | (_, .isFull idx k v) =>
    let (s, rightId) := s.reserveLeaf
    let lLeaf ← s.getLeaf id
    let (lLeaf, rLeaf) ← lLeaf.splitNewLeaf idx (k, v) rightId id
    let s := s.setLeaf id lLeaf
    let kv ← rLeaf.dataAt 0
    -- fix r_leaf's next's prev
    let s ← (match rLeaf.next with
      | some next => do
        let nl ← s.getLeaf next
        return s.setLeaf next (nl.setPrev (some rightId))
      | none => return s : Res (Store K V A))
    let s ← s.assignLeaf rightId rLeaf
    let updatedId := if splitOrigin ≤ idx then rightId else id
    return (s.cacheLeaf updatedId, .split kv.1 (.leaf rightId))

omit [Augmentation K V A] in
/-- `insert_leaf`, src/tree/mod.rs:311-341. -/
def insertLeafU (o : Answers K) (s : Store K V A) (id : Nat) (k : K) (v : V) :
    Res (Store K V A × InsertResult K V) := do
  let leaf ← s.getLeaf id
  let slot ← leaf.locateSlotU o
  insertLeafAt s id leaf slot k v

omit [Augmentation K V A] in
/-- The descents that keep a visit stack: `insert_inner` (src/tree/mod.rs:231-244) and `key_to_ref`
(506-532). The depth of the node is the height of the stack. -/
def stackStepU (o : Answers K) (st : List StackEntry) (i : Nat) (n : Inner K A) :
    Res (List StackEntry × NodeId) := do
  let (idx, c) ← n.locateChildU o st.length
  let st ← pushStack st (i, idx, c)
  return (st, c)

/-- `descend_insert`, src/tree/mod.rs:213-223, with `insert_inner` (225-296). -/
def descendInsertU (o : Answers K) (s : Store K V A) (nodeId : NodeId) (k : K) (v : V) :
    Res (Store K V A × InsertResult K V) :=
  match nodeId with
  | .inner id => do
    let (stack, leafId) ← descendLeaf s (stackStepU o) [] (.inner id)
    let (s, r) ← insertLeafU o s leafId k v
    insertAscend s stack r
  | .leaf id => insertLeafU o s id k v

/-- The end of `BPlusTree::insert`, src/tree/mod.rs:166-197. -/
def Tree.finishInsert (t : Tree K V A) (s : Store K V A) (r : InsertResult K V) :
    Res (Option V × Tree K V A) :=
  match r with
  | .inserted => do
    let a ← newAugmentationForId s t.root
    return (none, { t with store := s, rootAug := a, len := t.len + 1 })
  | .updated prev => do
    let a ← newAugmentationForId s t.root
    return (some prev, { t with store := s, rootAug := a })
  | .split k newChild => do
    let prevRootAug ← newAugmentationForId s t.root
    let newAug ← newAugmentationForId s newChild
    let newRoot ← Inner.newFromIter [k] [t.root, newChild] [prevRootAug, newAug]
    let newRootAug := innerAug V newRoot
    let (s, newRootId) := s.addInner newRoot
    return (none, { t with
      store := s, root := .inner newRootId, rootAug := newRootAug, len := t.len + 1 })

/-- `BPlusTree::insert`, src/tree/mod.rs:156-197. -/
def Tree.insertU (o : Answers K) (t : Tree K V A) (k : K) (v : V) : Res (Option V × Tree K V A) := do
  let (s, r) ← descendInsertU o t.store t.root k v
  t.finishInsert s r

omit [Augmentation K V A] in
/-- `key_to_ref`, src/tree/mod.rs:506-532. -/
def Tree.keyToRefU (o : Answers K) (t : Tree K V A) : Res (Option EntryRef) := do
  let (stack, leafId) ← descendLeaf t.store (stackStepU o) [] t.root
  let l ← t.store.getLeaf leafId
  match ← l.locateSlotU o with
  | .found idx => return some ⟨stack, leafId, idx⟩
  | .vacant _ => return none

/-- `remove_impl`, src/tree/tree_remove.rs:8-16. -/
def Tree.removeImplU (o : Answers K) (t : Tree K V A) : Res (Option (K × V) × Tree K V A) := do
  match ← t.keyToRefU o with
  | none => return (none, t)
  | some e =>
    let (kv, t) ← t.removeByRef e
    return (some kv, t)

/-- `remove`, src/tree/mod.rs:498-504. -/
def Tree.removeU (o : Answers K) (t : Tree K V A) : Res (Option V × Tree K V A) := do
  let (r, t) ← t.removeImplU o
  return (r.map (·.2), t)

end Aug

/-- One step of the descents by key without a stack; the state counts the nodes visited. -/
def locateStepU (o : Answers K) (d : Nat) (_ : Nat) (n : Inner K A) : Res (Nat × NodeId) := do
  let (_, c) ← n.locateChildU o d
  return (d + 1, c)

/-- `find_descend` up to the cache write, src/tree/mod.rs:418-433. -/
def findDescendLeafU (o : Answers K) (s : Store K V A) (root : NodeId) : Res Nat := do
  let (_, leafId) ← descendLeaf s (locateStepU o) 0 root
  return leafId

/-- `find_in_leaf`, src/tree/mod.rs:435-442. -/
def findInLeafU (o : Answers K) (s : Store K V A) (leafId : Nat) : Res (Option V) := do
  let l ← s.getLeaf leafId
  let (_, v) ← l.locateSlotWithValueU o
  return v

/-- `BPlusTree::get`, src/tree/mod.rs:344-354. -/
def Tree.getU (o : Answers K) (t : Tree K V A) : Res (Option V × Tree K V A) := do
  match ← t.store.tryCacheU o with
  | some leafId =>
    let v ← findInLeafU o t.store leafId
    return (v, t)
  | none =>
    let leafId ← findDescendLeafU o t.store t.root
    let s := t.store.cacheLeaf leafId
    let v ← findInLeafU o s leafId
    return (v, { t with store := s })

/-- `locate_slot_mut` (src/tree/leaf_node.rs:343-364), then a write through the reference. -/
def updateInLeafU (o : Answers K) (s : Store K V A) (leafId : Nat) (f : V → V) :
    Res (Option V × Store K V A) := do
  let l ← s.getLeaf leafId
  match ← l.locateSlotU o with
  | .found idx =>
    let kv ← l.dataAt idx
    return (some kv.2, s.setLeaf leafId { l with data := l.data.set idx (kv.1, f kv.2) })
  | .vacant _ => return (none, s)

/-- `BPlusTree::get_mut`, src/tree/mod.rs:357-372, followed by applying `f` to the value. -/
def Tree.getMutU (o : Answers K) (t : Tree K V A) (f : V → V) : Res (Option V × Tree K V A) := do
  match ← t.store.tryCacheU o with
  | some leafId =>
    let (v, s) ← updateInLeafU o t.store leafId f
    return (v, { t with store := s })
  | none =>
    let leafId ← findDescendLeafU o t.store t.root
    let s := t.store.cacheLeaf leafId
    let (v, s) ← updateInLeafU o s leafId f
    return (v, { t with store := s })

/-- `Cursor::locate_leaf`, src/tree/cursor.rs:210-225, with `BPlusTree::locate_leaf`
(src/tree/mod.rs:583-607). The range test of the hinted leaf is number 2. -/
def Cursor.locateLeafU (o : Answers K) (c : Cursor K) (t : Tree K V A) : Res (Nat × Leaf K V) := do
  let hit ← (match t.store.tryGetLeaf c.leafIdHint with
    | some leaf => do
      let b ← leaf.inRangeU o 2
      return if b then some leaf else none
    | none => return none : Res (Option (Leaf K V)))
  match hit with
  | some leaf => return (c.leafIdHint, leaf)
  | none =>
    let leafId ← (do
      match ← t.store.tryCacheU o with
      | some leafId => return leafId
      | none => findDescendLeafU o t.store t.root : Res Nat)
    let leaf ← t.store.getLeaf leafId
    return (leafId, leaf)

/-- The test of the offset hint, src/tree/cursor.rs:95-96, 150-151. -/
def Cursor.hintHitsU (o : Answers K) (c : Cursor K) (leaf : Leaf K V) : Bool :=
  match leaf.tryDataAt c.offsetHint with
  | some kv => o.eq kv.1
  | none => false

/-- The choice of the previous entry in `prev_with_value`, src/tree/cursor.rs:95-121. -/
def Cursor.prevPosU (o : Answers K) (c : Cursor K) (t : Tree K V A) (leaf : Leaf K V) :
    Res (Option (Nat × Leaf K V)) :=
  if c.hintHitsU o leaf then
    if 0 < c.offsetHint then return some (c.offsetHint - 1, leaf)
    else prevLeafEnd t leaf
  else do
    let offset ← (do
      match ← leaf.locateSlotU o with
      | .found i => return i
      | .vacant i => return i : Res Nat)
    if 0 < offset then return some (offset - 1, leaf)
    else prevLeafEnd t leaf

/-- `Cursor::prev_with_value`, src/tree/cursor.rs:86-132. -/
def Cursor.prevWithValueU (o : Answers K) (c : Cursor K) (t : Tree K V A) :
    Res (Option (Cursor K × V)) := do
  let (leafId, leaf) ← c.locateLeafU o t
  match ← c.prevPosU o t leaf with
  | none => return none
  | some (offset, leaf) =>
    let kv ← leaf.dataAt offset
    return some (⟨kv.1, leafId, offset⟩, kv.2)

/-- The choice of the next offset in `next_with_value`, src/tree/cursor.rs:150-159. -/
def Cursor.nextOffsetU (o : Answers K) (c : Cursor K) (leaf : Leaf K V) : Res Nat :=
  if c.hintHitsU o leaf then return c.offsetHint + 1
  else do
    let (offset, value) ← leaf.locateSlotWithValueU o
    match value with
    | some _ => return offset + 1
    | none => return offset

/-- `Cursor::next_with_value`, src/tree/cursor.rs:141-185. -/
def Cursor.nextWithValueU (o : Answers K) (c : Cursor K) (t : Tree K V A) :
    Res (Option (Cursor K × V)) := do
  let (leafId, leaf) ← c.locateLeafU o t
  let nextOffset ← c.nextOffsetU o leaf
  forwardFrom t leafId leaf nextOffset

/-- `Cursor::value`, src/tree/cursor.rs:193-207. -/
def Cursor.valueU (o : Answers K) (c : Cursor K) (t : Tree K V A) : Res (Option V) := do
  let (_, leaf) ← c.locateLeafU o t
  match leaf.tryDataAt c.offsetHint, c.hintHitsU o leaf with
  | some kv, true => return some kv.2
  | _, _ =>
    let (_, v) ← leaf.locateSlotWithValueU o
    return v

/-- `get_cursor`, src/tree/mod.rs:637-660. -/
def Tree.getCursorU (o : Answers K) (t : Tree K V A) (k : K) :
    Res (Option (Cursor K × Option V)) := do
  let leafId ← findDescendLeafU o t.store t.root
  let leaf ← t.store.getLeaf leafId
  let (idx, v) ← leaf.locateSlotWithValueU o
  return some (⟨k, leafId, idx⟩, v)

end Bpt
