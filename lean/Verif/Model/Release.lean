import Verif.LawlessHistory
import Verif.Model.BulkLedger

/-!
# The tree as built for release

In a release build `debug_assert!` does nothing and integer arithmetic wraps around instead of
panicking. Here every function with a `debug_assert!` or a subtraction that can go below zero is
written again without the check (suffix `R`), as are the functions that call them; everything else is
shared. Where the check would have failed, what the code does next is followed: nearly always it is an
access out of range (`ub`). `assert!`, `unwrap`, `expect`, `unreachable!` and checked indexing still
panic.
-/

namespace Bpt
variable {K V A : Type}

/-- `slice_insert`, src/tree/slice_utils.rs:10-20, on a slice holding the initialised elements `l`
followed by one free slot. Out of range, the value is written past the end of the slice: `ub`. -/
def sliceInsertR {α : Type} (l : List α) (idx : Nat) (x : α) : Res (List α) :=
  if idx ≤ l.length then .ok (l.take idx ++ x :: l.drop idx) else .error .ub

/-- `slice_remove`, src/tree/slice_utils.rs:27-36, on a slice of initialised elements.
Out of range, a slot past the end is read: `ub`. -/
def sliceRemoveR {α : Type} (l : List α) (idx : Nat) : Res (α × List α) :=
  match l[idx]? with
  | some x => .ok (x, l.take idx ++ l.drop (idx + 1))
  | none => .error .ub

/-- `split_new_leaf`, src/tree/leaf_node.rs:236-294. Returns (self, new node). The moves copy the
slots `32..64`; if the leaf were not full the new node would claim uninitialised slots, which the
list-level model reports as `ub` at once. -/
def Leaf.splitNewLeafR (l : Leaf K V) (insertIdx : Nat) (item : K × V) (newLeafId selfLeafId : Nat) :
    Res (Leaf K V × Leaf K V) :=
  if l.len ≠ leafN then .error .ub else
  let right := l.data.drop splitOrigin
  let left := l.data.take splitOrigin
  if insertIdx < splitOrigin then do
    let left' ← sliceInsertR left insertIdx item
    return ({ l with data := left', next := some newLeafId },
            { data := right, prev := some selfLeafId, next := l.next })
  else do
    let right' ← sliceInsertR right (insertIdx - splitOrigin) item
    return ({ l with data := left, next := some newLeafId },
            { data := right', prev := some selfLeafId, next := l.next })

/-- `delete_at`, src/tree/leaf_node.rs:517-525. -/
def Leaf.deleteAtR (l : Leaf K V) (idx : Nat) : Res ((K × V) × Leaf K V) := do
  let (kv, d) ← sliceRemoveR l.data idx
  return (kv, { l with data := d })

/-- `try_delete_at`, src/tree/leaf_node.rs:296-308. -/
def Leaf.tryDeleteAtR (l : Leaf K V) (idx : Nat) : Res (Leaf K V × DeleteResult K V) :=
  if l.ableToLend then do
    let (kv, d) ← sliceRemoveR l.data idx
    return ({ l with data := d }, .done kv)
  else
    return (l, .underSize idx)

/-- `pop`, src/tree/leaf_node.rs:367-377, without the assertion of line 368. On an empty leaf the
index `0 - 1` wraps around; here it is 0, out of range just the same. -/
def Leaf.popR (l : Leaf K V) : Res ((K × V) × Leaf K V) := do
  let (kv, d) ← sliceRemoveR l.data (l.len - 1)
  return (kv, { l with data := d })

/-- `pop_front`, src/tree/leaf_node.rs:379-388, without the assertion of line 380. -/
def Leaf.popFrontR (l : Leaf K V) : Res ((K × V) × Leaf K V) := do
  let (kv, d) ← sliceRemoveR l.data 0
  return (kv, { l with data := d })

/-- `delete_with_push`, src/tree/leaf_node.rs:391-402. -/
def Leaf.deleteWithPushR (l : Leaf K V) (idx : Nat) (item : K × V) : Res ((K × V) × Leaf K V) := do
  let (kv, d) ← sliceRemoveR l.data idx
  return (kv, { l with data := d ++ [item] })

/-- `key_range`, src/tree/leaf_node.rs:125-134, without the assertion of line 126. -/
def Leaf.keyRangeR (l : Leaf K V) : Res (Option K × Option K) := do
  let start ← (match l.prev with
    | some _ => do
      let kv ← l.dataAt 0
      return some kv.1
    | none => return none : Res (Option K))
  let stop ← (match l.next with
    | some _ => do
      let kv ← l.dataAt (l.len - 1)
      return some kv.1
    | none => return none : Res (Option K))
  return (start, stop)

/-- `insert_at`, src/tree/inner_node.rs:225-251, without the assertions of lines 232-233: on a full
node the slices go past the arrays. -/
def Inner.insertAtR (n : Inner K A) (slot : Nat) (key : K) (rightChild : NodeId) (rightAug : A) :
    Res (Inner K A) :=
  if n.isFull then .error .ub else do
    let ks ← sliceInsertR n.keys slot key
    let cs ← sliceInsertR n.childs (slot + 1) rightChild
    let as ← sliceInsertR n.augs (slot + 1) rightAug
    return ⟨ks, cs, as⟩

/-- `split`, src/tree/inner_node.rs:257-397. Returns (promoted key, self, new node). `self.size` is
set to 32 first, so slots of `self` beyond it (stale copies of moved elements) are not part of the
list-level result. A child index beyond the array makes the unchecked slices go out of range. Without
the assertion of line 264, a node that is not full would pass on uninitialised slots (`ub` at once). -/
def Inner.splitR (n : Inner K A) (childIdx : Nat) (k : K) (newChild : NodeId) (newAug : A) :
    Res (K × Inner K A × Inner K A) :=
  if !n.isFull then .error .ub else
  if innerN < childIdx then .error .ub else
  if childIdx < splitOrigin then do
    let newKey ← readAt n.keys (splitOrigin - 1)
    let ks ← sliceInsertR (n.keys.take (splitOrigin - 1)) childIdx k
    let cs ← sliceInsertR (n.childs.take splitOrigin) (childIdx + 1) newChild
    let as ← sliceInsertR (n.augs.take splitOrigin) (childIdx + 1) newAug
    return (newKey, ⟨ks, cs, as⟩,
      ⟨n.keys.drop splitOrigin, n.childs.drop splitOrigin, n.augs.drop splitOrigin⟩)
  else if splitOrigin < childIdx then do
    let newKey ← readAt n.keys splitOrigin
    let newSlotIdx := childIdx - 1 - splitOrigin
    let newChildIdx := childIdx - splitOrigin
    let ks := (n.keys.drop (splitOrigin + 1)).take newSlotIdx
      ++ k :: n.keys.drop (splitOrigin + newSlotIdx + 1)
    let cs := (n.childs.drop (splitOrigin + 1)).take newChildIdx
      ++ newChild :: n.childs.drop (splitOrigin + 1 + newChildIdx)
    let as := (n.augs.drop (splitOrigin + 1)).take newChildIdx
      ++ newAug :: n.augs.drop (splitOrigin + 1 + newChildIdx)
    return (newKey,
      ⟨n.keys.take splitOrigin, n.childs.take (splitOrigin + 1), n.augs.take (splitOrigin + 1)⟩,
      ⟨ks, cs, as⟩)
  else
    return (k,
      ⟨n.keys.take splitOrigin, n.childs.take (splitOrigin + 1), n.augs.take (splitOrigin + 1)⟩,
      ⟨n.keys.drop splitOrigin, newChild :: n.childs.drop (splitOrigin + 1),
        newAug :: n.augs.drop (splitOrigin + 1)⟩)

/-- `remove_slot_with_right`, src/tree/inner_node.rs:401-419. Returns (is it still at least of the
minimum size, removed key, node); `true` is `InnerMergeResult::Done`. -/
def Inner.removeSlotWithRightR (n : Inner K A) (slot : Nat) : Res (Bool × K × Inner K A) := do
  let (k, ks) ← sliceRemoveR n.keys slot
  let (_, cs) ← sliceRemoveR n.childs (slot + 1)
  let (_, as) ← sliceRemoveR n.augs (slot + 1)
  return (decide (minN ≤ ks.length), k, ⟨ks, cs, as⟩)

/-- `merge_next`, src/tree/inner_node.rs:421-446, without the assertion of line 429: too many keys are
moved past the end of the arrays. -/
def Inner.mergeNextR (n : Inner K A) (slotKey : K) (right : Inner K A) : Res (Inner K A) :=
  if innerN ≤ n.len then .error .ub else
  if ¬ n.len + 1 + right.len ≤ innerN then .error .ub else
  .ok ⟨n.keys ++ slotKey :: right.keys, n.childs ++ right.childs, n.augs ++ right.augs⟩

/-- `pop`, src/tree/inner_node.rs:449-470. On an empty node `size - 1` wraps around; here it is 0, out
of range just the same. -/
def Inner.popR (n : Inner K A) : Res ((K × NodeId × A) × Inner K A) := do
  let k ← readAt n.keys (n.len - 1)
  let c ← readAt n.childs n.len
  let a ← readAt n.augs n.len
  return ((k, c, a), ⟨n.keys.take (n.len - 1), n.childs.take n.len, n.augs.take n.len⟩)

/-- `pop_front`, src/tree/inner_node.rs:472-484. -/
def Inner.popFrontR (n : Inner K A) : Res ((K × NodeId × A) × Inner K A) := do
  let (k, ks) ← sliceRemoveR n.keys 0
  let (c, cs) ← sliceRemoveR n.childs 0
  let (a, as) ← sliceRemoveR n.augs 0
  return ((k, c, a), ⟨ks, cs, as⟩)

/-- `in_range`, src/tree/leaf_node.rs:106-123; its two tests are numbered `i` and `i + 1`. On an empty
leaf `len - 1` wraps around; here it is 0, out of range just the same. -/
def Leaf.inRangeUR (o : Answers K) (i : Nat) (l : Leaf K V) : Res Bool := do
  let isLtStart ← (match l.prev with
    | some _ => do
      let kv ← l.dataAt 0
      return o.lt i kv.1
    | none => return false : Res Bool)
  if isLtStart then
    return false
  let isGtEnd ← (match l.next with
    | some _ => do
      let kv ← l.dataAt (l.len - 1)
      return o.lt (i + 1) kv.1
    | none => return false : Res Bool)
  return !isGtEnd

/-- `try_cache`, src/tree/node_stores/vec_backed.rs:229-246. -/
def Store.tryCacheUR (o : Answers K) (s : Store K V A) : Res (Option Nat) :=
  match s.cached with
  | none => return none
  | some id =>
    match s.tryGetLeaf id with
    | none => return none
    | some l => do
      let b ← l.inRangeUR o 0
      return if b then some id else none

/-- `try_upsert` once the slot is known, src/tree/leaf_node.rs:213-234. -/
def Leaf.upsertAtR (l : Leaf K V) (slot : Slot) (k : K) (v : V) :
    Res (Leaf K V × Leaf.UpsertResult K V) :=
  match slot with
  | .found idx => do
    let kv ← l.dataAt idx
    return ({ l with data := l.data.set idx (kv.1, v) }, .updated kv.2)
  | .vacant idx =>
    if !l.isFull then do
      let d ← sliceInsertR l.data idx (k, v)
      return ({ l with data := d }, .inserted)
    else
      return (l, .isFull idx k v)

section Aug
variable [Augmentation K V A]

omit [Augmentation K V A] in
/-- `insert_leaf` once the slot is known, src/tree/mod.rs:311-341. -/
def insertLeafAtR (s : Store K V A) (id : Nat) (leaf : Leaf K V) (slot : Slot) (k : K) (v : V) :
    Res (Store K V A × InsertResult K V) := do
  match ← leaf.upsertAtR slot k v with
  | (leaf', .inserted) => return ((s.setLeaf id leaf').cacheLeaf id, .inserted)
  | (leaf', .updated v0) => return (s.setLeaf id leaf', .updated v0)
  | (_, .isFull idx k v) =>
    let (s, rightId) := s.reserveLeaf
    let lLeaf ← s.getLeaf id
    let (lLeaf, rLeaf) ← lLeaf.splitNewLeafR idx (k, v) rightId id
    let s := s.setLeaf id lLeaf
    let kv ← rLeaf.dataAt 0
    -- fix r_leaf's next's prev
    let s ← (match rLeaf.next with
      | some next => do
        let nl ← s.getLeaf next
        return s.setLeaf next (nl.setPrev (some rightId))
      | none => return s : Res (Store K V A))
    let s ← s.assignLeaf rightId rLeaf
    let updatedId := if splitOrigin ≤ idx then rightId else id
    return (s.cacheLeaf updatedId, .split kv.1 (.leaf rightId))

omit [Augmentation K V A] in
/-- `insert_leaf`, src/tree/mod.rs:311-341. -/
def insertLeafUR (o : Answers K) (s : Store K V A) (id : Nat) (k : K) (v : V) :
    Res (Store K V A × InsertResult K V) := do
  let leaf ← s.getLeaf id
  let slot ← leaf.locateSlotU o
  insertLeafAtR s id leaf slot k v

/-- The ascend loop of `insert_inner`, src/tree/mod.rs:246-295. -/
def insertAscendR (s : Store K V A) :
    List StackEntry → InsertResult K V → Res (Store K V A × InsertResult K V)
  | [], r => return (s, r)
  | (id, childIdx, childId) :: stack, .split key rightChild => do
    let rightAug ← newAugmentationForId s rightChild
    let childAug ← newAugmentationForId s childId
    let node ← s.getInner id
    let node ← node.setAugmentation childIdx childAug
    if !node.isFull then
      let node ← node.insertAtR childIdx key rightChild rightAug
      insertAscendR (s.setInner id node) stack .inserted
    else
      let (promptK, node, newNode) ← node.split childIdx key rightChild rightAug
      let (s, newId) := (s.setInner id node).addInner newNode
      insertAscendR s stack (.split promptK (.inner newId))
  | (id, childIdx, childId) :: stack, .inserted => do
    let childAug ← newAugmentationForId s childId
    let node ← s.getInner id
    let node ← node.setAugmentation childIdx childAug
    insertAscendR (s.setInner id node) stack .inserted
  | (id, childIdx, childId) :: stack, .updated v => do
    let childAug ← newAugmentationForId s childId
    let node ← s.getInner id
    let node ← node.setAugmentation childIdx childAug
    insertAscendR (s.setInner id node) stack (.updated v)

/-- `descend_insert`, src/tree/mod.rs:213-223, with `insert_inner` (225-296). -/
def descendInsertUR (o : Answers K) (s : Store K V A) (nodeId : NodeId) (k : K) (v : V) :
    Res (Store K V A × InsertResult K V) :=
  match nodeId with
  | .inner id => do
    let (stack, leafId) ← descendLeaf s (stackStepU o) [] (.inner id)
    let (s, r) ← insertLeafUR o s leafId k v
    insertAscendR s stack r
  | .leaf id => insertLeafUR o s id k v

/-- `BPlusTree::insert`, src/tree/mod.rs:156-197. -/
def Tree.insertUR (o : Answers K) (t : Tree K V A) (k : K) (v : V) : Res (Option V × Tree K V A) := do
  let (s, r) ← descendInsertUR o t.store t.root k v
  t.finishInsert s r

/-- `try_rotate_right_for_inner_node`, src/tree/tree_remove.rs:235-267. `none` when the left
sibling cannot lend. -/
def tryRotateRightInnerR (s : Store K V A) (node : Inner K A) (slot : Nat) :
    Res (Option (Store K V A × Inner K A)) := do
  let rightId ← (← node.childId (slot + 1)).innerIdUnchecked
  let leftId ← (← node.childId slot).innerIdUnchecked
  let prev ← s.getInner leftId
  if prev.ableToLend then
    let ((k, c, a), prev) ← prev.popR
    let s := s.setInner leftId prev
    let leftAug := innerAug V prev
    let (slotKey, node) ← node.setKey slot k
    let right ← s.getInner rightId
    let right ← right.pushFront slotKey c a
    let s := s.setInner rightId right
    let rightAug := innerAug V right
    let node ← node.setAugmentation slot leftAug
    let node ← node.setAugmentation (slot + 1) rightAug
    return some (s, node)
  else
    return none

/-- `try_rotate_left_for_inner_node`, src/tree/tree_remove.rs:269-302. -/
def tryRotateLeftInnerR (s : Store K V A) (node : Inner K A) (slot : Nat) :
    Res (Option (Store K V A × Inner K A)) := do
  let rightId ← (← node.childId (slot + 1)).innerIdUnchecked
  let leftId ← (← node.childId slot).innerIdUnchecked
  let right ← s.getInner rightId
  if right.ableToLend then
    let ((k, c, a), right) ← right.popFrontR
    let s := s.setInner rightId right
    let rightAug := innerAug V right
    let (slotKey, node) ← node.setKey slot k
    let left ← s.getInner leftId
    let left ← left.push slotKey c a
    let s := s.setInner leftId left
    let leftAug := innerAug V left
    let node ← node.setAugmentation slot leftAug
    let node ← node.setAugmentation (slot + 1) rightAug
    return some (s, node)
  else
    return none

/-- `merge_inner_node`, src/tree/tree_remove.rs:304-330, without the assertion of line 314. The Boolean is
`InnerMergeResult::Done`. -/
def mergeInnerNodeR (s : Store K V A) (node : Inner K A) (slot : Nat) :
    Res (Bool × Store K V A × Inner K A) := do
  let leftId ← (← node.childId slot).innerIdUnchecked
  let rightId ← (← node.childId (slot + 1)).innerIdUnchecked
  let (result, slotKey, node) ← node.removeSlotWithRightR slot
  let (right, s) ← s.takeInner rightId
  let left ← s.getInner leftId
  let left ← left.mergeNextR slotKey right
  let s := s.setInner leftId left
  let node ← node.setAugmentation slot (innerAug V left)
  return (result, s, node)

/-- `handle_inner_under_size`, src/tree/tree_remove.rs:97-129. -/
def handleInnerUnderSizeR (s : Store K V A) (st : Statistic) (node : Inner K A) (childIdx : Nat)
    (deleted : K × V) : Res (DeleteResult K V × Store K V A × Statistic × Inner K A) := do
  let rotR ← (if 0 < childIdx then tryRotateRightInnerR s node (childIdx - 1) else return none :
    Res (Option (Store K V A × Inner K A)))
  match rotR with
  | some (s, node) =>
    return (.done deleted, s, { st with rotateRightInner := st.rotateRightInner + 1 }, node)
  | none =>
  let rotL ← (if childIdx < node.len then tryRotateLeftInnerR s node childIdx else return none :
    Res (Option (Store K V A × Inner K A)))
  match rotL with
  | some (s, node) =>
    return (.done deleted, s, { st with rotateLeftInner := st.rotateLeftInner + 1 }, node)
  | none =>
  let (mergeSlot, st) := if 0 < childIdx
    then (childIdx - 1, { st with mergeWithLeftInner := st.mergeWithLeftInner + 1 })
    else (childIdx, { st with mergeWithRightInner := st.mergeWithRightInner + 1 })
  let (ok, s, node) ← mergeInnerNodeR s node mergeSlot
  if ok then
    return (.done deleted, s, st, node)
  else
    return (.innerUnderSize deleted, s, st, node)

/-- `rotate_right_for_leaf`, src/tree/tree_remove.rs:332-361, without the assertion of line 342. -/
def rotateRightForLeafR (s : Store K V A) (node : Inner K A) (slot deleteIdx : Nat) :
    Res ((K × V) × Store K V A × Inner K A) := do
  let leftId ← (← node.childId slot).leafIdUnchecked
  let rightId ← (← node.childId (slot + 1)).leafIdUnchecked
  let left ← s.getLeaf leftId
  let (kv, left) ← left.popR
  let s := s.setLeaf leftId left
  let node ← node.setAugmentation slot (leafAug left)
  let newSlotKey := kv.1
  let right ← s.getLeaf rightId
  let (deleted, right) ← right.deleteWithPushFront deleteIdx kv
  let s := s.setLeaf rightId right
  let node ← node.setAugmentation (slot + 1) (leafAug right)
  let s := s.cacheLeaf rightId
  let (_, node) ← node.setKey slot newSlotKey
  return (deleted, s, node)

/-- `rotate_left_for_leaf`, src/tree/tree_remove.rs:363-391, without the assertion of line 373. -/
def rotateLeftForLeafR (s : Store K V A) (parent : Inner K A) (slot deleteIdx : Nat) :
    Res ((K × V) × Store K V A × Inner K A) := do
  let leftId ← (← parent.childId slot).leafIdUnchecked
  let rightId ← (← parent.childId (slot + 1)).leafIdUnchecked
  let right ← s.getLeaf rightId
  let (kv, right) ← right.popFrontR
  let s := s.setLeaf rightId right
  let parent ← parent.setAugmentation (slot + 1) (leafAug right)
  let first ← right.dataAt 0
  let newSlotKey := first.1
  let left ← s.getLeaf leftId
  let (deleted, left) ← left.deleteWithPushR deleteIdx kv
  let s := s.setLeaf leftId left
  let parent ← parent.setAugmentation slot (leafAug left)
  let (_, parent) ← parent.setKey slot newSlotKey
  return (deleted, s.cacheLeaf leftId, parent)

/-- `merge_leaf_node_left`, src/tree/tree_remove.rs:393-418. -/
def mergeLeafNodeLeftR (s : Store K V A) (parent : Inner K A) (slot deleteIdx : Nat) :
    Res (DeleteResult K V × Store K V A × Inner K A) := do
  let leftId ← (← parent.childId slot).leafIdUnchecked
  let rightId ← (← parent.childId (slot + 1)).leafIdUnchecked
  let (right, s) ← s.takeLeaf rightId
  let left ← s.getLeaf leftId
  let (kv, left) ← left.mergeRightDeleteFirst deleteIdx right
  let s := s.setLeaf leftId left
  let parent ← parent.setAugmentation slot (leafAug left)
  let s ← relinkNext s left leftId
  let (ok, _, parent) ← parent.removeSlotWithRightR slot
  let s := s.cacheLeaf leftId
  return (if ok then .done kv else .innerUnderSize kv, s, parent)

/-- `merge_leaf_node_with_right`, src/tree/tree_remove.rs:420-447. -/
def mergeLeafNodeWithRightR (s : Store K V A) (parent : Inner K A) (slot deleteIdx : Nat) :
    Res (DeleteResult K V × Store K V A × Inner K A) := do
  let leftId ← (← parent.childId slot).leafIdUnchecked
  let rightId ← (← parent.childId (slot + 1)).leafIdUnchecked
  let (right, s) ← s.takeLeaf rightId
  let left ← s.getLeaf leftId
  let (kv, left) ← left.deleteAtR deleteIdx
  let left ← left.mergeRight right
  let s := s.setLeaf leftId left
  let parent ← parent.setAugmentation slot (leafAug left)
  let s ← relinkNext s left leftId
  let (ok, _, parent) ← parent.removeSlotWithRightR slot
  let s := s.cacheLeaf leftId
  return (if ok then .done kv else .innerUnderSize kv, s, parent)

/-- `handle_leaf_under_size`, src/tree/tree_remove.rs:131-233. -/
def handleLeafUnderSizeR (s : Store K V A) (st : Statistic) (node : Inner K A)
    (childIdx keyIdx : Nat) : Res (DeleteResult K V × Store K V A × Statistic × Inner K A) := do
  let prevSibling ← (if 0 < childIdx then do
      let id ← (← node.childId (childIdx - 1)).leafIdUnchecked
      let l ← s.getLeaf id
      return some l
    else return none : Res (Option (Leaf K V)))
  let nextSibling ← (if childIdx < node.len then do
      let id ← (← node.childId (childIdx + 1)).leafIdUnchecked
      let l ← s.getLeaf id
      return some l
    else return none : Res (Option (Leaf K V)))
  match ← chooseFix prevSibling nextSibling with
  | .rotateRight =>
    let (deleted, s, node) ← rotateRightForLeafR s node (childIdx - 1) keyIdx
    return (.done deleted, s, { st with rotateRightLeaf := st.rotateRightLeaf + 1 }, node)
  | .rotateLeft =>
    let (deleted, s, node) ← rotateLeftForLeafR s node childIdx keyIdx
    return (.done deleted, s, { st with rotateLeftLeaf := st.rotateLeftLeaf + 1 }, node)
  | .mergeLeft =>
    let (r, s, node) ← mergeLeafNodeLeftR s node (childIdx - 1) keyIdx
    return (r, s, { st with mergeWithLeftLeaf := st.mergeWithLeftLeaf + 1 }, node)
  | .mergeRight =>
    let (r, s, node) ← mergeLeafNodeWithRightR s node childIdx keyIdx
    return (r, s, { st with mergeWithRightLeaf := st.mergeWithRightLeaf + 1 }, node)

/-- The fix-up loop of `remove_by_ref` over the visit stack, src/tree/tree_remove.rs:36-60. -/
def removeAscendR (s : Store K V A) (st : Statistic) :
    List StackEntry → DeleteResult K V → Res (DeleteResult K V × Store K V A × Statistic)
  | [], r => return (r, s, st)
  | (parentId, childIdx, childId) :: stack, .done kv => do
    let childAug ← newAugmentationForId s childId
    let node ← s.getInner parentId
    let node ← node.setAugmentation childIdx childAug
    removeAscendR (s.setInner parentId node) st stack (.done kv)
  | (parentId, childIdx, _) :: stack, .innerUnderSize kv => do
    let parent ← s.getInner parentId
    let (r, s, st, parent) ← handleInnerUnderSizeR s st parent childIdx kv
    removeAscendR (s.setInner parentId parent) st stack r
  | (parentId, childIdx, _) :: stack, .leafUnderSize idx => do
    let parent ← s.getInner parentId
    let (r, s, st, parent) ← handleLeafUnderSizeR s st parent childIdx idx
    removeAscendR (s.setInner parentId parent) st stack r

/-- Root processing of `remove_by_ref`, src/tree/tree_remove.rs:63-91 (without the final
bookkeeping). -/
def removeRootR (s : Store K V A) (root : NodeId) :
    DeleteResult K V → Res ((K × V) × Store K V A × NodeId)
  | .done kv => return (kv, s, root)
  | .innerUnderSize kv => do
    let id ← root.innerIdUnchecked
    let r ← s.getInner id
    if r.isEmpty then
      let c ← r.childId 0
      return (kv, s, c)
    else
      return (kv, s, root)
  | .leafUnderSize idx => do
    let id ← root.leafIdUnchecked
    let l ← s.getLeaf id
    let (kv, l) ← l.deleteAtR idx
    return (kv, s.setLeaf id l, root)

/-- `remove_by_ref`, src/tree/tree_remove.rs:18-95. `len -= 1` wraps around at 0. -/
def Tree.removeByRefR (t : Tree K V A) (e : EntryRef) : Res ((K × V) × Tree K V A) := do
  let leaf ← t.store.getLeaf e.leafId
  let (leaf, dr) ← leaf.tryDeleteAtR e.offset
  let s := t.store.setLeaf e.leafId leaf
  let r : DeleteResult K V := match dr with
    | .done kv => .done kv
    | .underSize idx => .leafUnderSize idx
  let (r, s, st) ← removeAscendR s t.st e.stack r
  let (kv, s, root) ← removeRootR s t.root r
  let a ← newAugmentationForId s root
  let len := if t.len = 0 then 2 ^ 64 - 1 else t.len - 1
  return (kv, { root := root, rootAug := a, len := len, store := s, st := st })

/-- `remove_impl`, src/tree/tree_remove.rs:8-16. -/
def Tree.removeImplUR (o : Answers K) (t : Tree K V A) : Res (Option (K × V) × Tree K V A) := do
  match ← t.keyToRefU o with
  | none => return (none, t)
  | some e =>
    let (kv, t) ← t.removeByRefR e
    return (some kv, t)

/-- `remove`, src/tree/mod.rs:498-504. -/
def Tree.removeUR (o : Answers K) (t : Tree K V A) : Res (Option V × Tree K V A) := do
  let (r, t) ← t.removeImplUR o
  return (r.map (·.2), t)

end Aug

/-- `BPlusTree::get`, src/tree/mod.rs:344-354. -/
def Tree.getUR (o : Answers K) (t : Tree K V A) : Res (Option V × Tree K V A) := do
  match ← t.store.tryCacheUR o with
  | some leafId =>
    let v ← findInLeafU o t.store leafId
    return (v, t)
  | none =>
    let leafId ← findDescendLeafU o t.store t.root
    let s := t.store.cacheLeaf leafId
    let v ← findInLeafU o s leafId
    return (v, { t with store := s })

/-- `BPlusTree::get_mut`, src/tree/mod.rs:357-372, followed by applying `f` to the value. -/
def Tree.getMutUR (o : Answers K) (t : Tree K V A) (f : V → V) : Res (Option V × Tree K V A) := do
  match ← t.store.tryCacheUR o with
  | some leafId =>
    let (v, s) ← updateInLeafU o t.store leafId f
    return (v, { t with store := s })
  | none =>
    let leafId ← findDescendLeafU o t.store t.root
    let s := t.store.cacheLeaf leafId
    let (v, s) ← updateInLeafU o s leafId f
    return (v, { t with store := s })

/-- `Cursor::locate_leaf`, src/tree/cursor.rs:210-225, with `BPlusTree::locate_leaf`
(src/tree/mod.rs:583-607). The range test of the hinted leaf is number 2. -/
def Cursor.locateLeafUR (o : Answers K) (c : Cursor K) (t : Tree K V A) : Res (Nat × Leaf K V) := do
  let hit ← (match t.store.tryGetLeaf c.leafIdHint with
    | some leaf => do
      let b ← leaf.inRangeUR o 2
      return if b then some leaf else none
    | none => return none : Res (Option (Leaf K V)))
  match hit with
  | some leaf => return (c.leafIdHint, leaf)
  | none =>
    let leafId ← (do
      match ← t.store.tryCacheUR o with
      | some leafId => return leafId
      | none => findDescendLeafU o t.store t.root : Res Nat)
    let leaf ← t.store.getLeaf leafId
    return (leafId, leaf)

/-- The step to the previous leaf in `prev_with_value`, src/tree/cursor.rs:99-104 and 114-119. -/
def prevLeafEndR (t : Tree K V A) (leaf : Leaf K V) : Res (Option (Nat × Leaf K V)) :=
  match leaf.prev with
  | some prevId => do
    let prev ← t.store.getLeaf prevId
    return some (if prev.len = 0 then 2 ^ 64 - 1 else prev.len - 1, prev)
  | none => return none

/-- The choice of the previous entry in `prev_with_value`, src/tree/cursor.rs:95-121. -/
def Cursor.prevPosUR (o : Answers K) (c : Cursor K) (t : Tree K V A) (leaf : Leaf K V) :
    Res (Option (Nat × Leaf K V)) :=
  if c.hintHitsU o leaf then
    if 0 < c.offsetHint then return some (c.offsetHint - 1, leaf)
    else prevLeafEndR t leaf
  else do
    let offset ← (do
      match ← leaf.locateSlotU o with
      | .found i => return i
      | .vacant i => return i : Res Nat)
    if 0 < offset then return some (offset - 1, leaf)
    else prevLeafEndR t leaf

/-- `Cursor::prev_with_value`, src/tree/cursor.rs:86-132. -/
def Cursor.prevWithValueUR (o : Answers K) (c : Cursor K) (t : Tree K V A) :
    Res (Option (Cursor K × V)) := do
  let (leafId, leaf) ← c.locateLeafUR o t
  match ← c.prevPosUR o t leaf with
  | none => return none
  | some (offset, leaf) =>
    let kv ← leaf.dataAt offset
    return some (⟨kv.1, leafId, offset⟩, kv.2)

/-- `Cursor::next_with_value`, src/tree/cursor.rs:141-185. -/
def Cursor.nextWithValueUR (o : Answers K) (c : Cursor K) (t : Tree K V A) :
    Res (Option (Cursor K × V)) := do
  let (leafId, leaf) ← c.locateLeafUR o t
  let nextOffset ← c.nextOffsetU o leaf
  forwardFrom t leafId leaf nextOffset

/-- `Cursor::value`, src/tree/cursor.rs:193-207. -/
def Cursor.valueUR (o : Answers K) (c : Cursor K) (t : Tree K V A) : Res (Option V) := do
  let (_, leaf) ← c.locateLeafUR o t
  match leaf.tryDataAt c.offsetHint, c.hintHitsU o leaf with
  | some kv, true => return some kv.2
  | _, _ =>
    let (_, v) ← leaf.locateSlotWithValueU o
    return v

/-- `last`, src/tree/mod.rs:397-416. -/
def Tree.lastR (t : Tree K V A) : Res (Option (K × V)) :=
  if t.isEmpty then return none else do
    let id ← t.lastLeaf
    let l ← t.store.getLeaf id
    let kv ← l.dataAt (l.len - 1)
    return some kv

/-- `Iter::next_back`, src/tree/iterator.rs:74-110. `len` is not changed, as in the code. -/
def Iter.nextBackR (t : Tree K V A) (it : Iter K V) : Res (Option (K × V) × Iter K V) :=
  if it.len = 0 then return (none, it) else
  match it.end_ with
  | some (leaf, offset) =>
    if 0 < offset then do
      let kv ← leaf.dataAt (offset - 1)
      return (some kv, { it with end_ := some (leaf, offset - 1) })
    else
      match leaf.prev with
      | none => return (none, it)
      | some prevId => do
        let pl ← t.store.getLeaf prevId
        let kv ← pl.dataAt (pl.len - 1)
        return (some kv, { it with end_ := some (pl, pl.len - 1) })
  | none => do
    let lastId ← t.lastLeaf
    let ll ← t.store.getLeaf lastId
    if ll.len = 0 then return (none, it)
    let kv ← ll.dataAt (ll.len - 1)
    return (some kv, { it with end_ := some (ll, ll.len - 1) })

/-- One call on the borrowed iterator. -/
def Iter.callR (t : Tree K V A) (it : Iter K V) : Dir → Res (Option (K × V) × Iter K V)
  | .front => it.next t
  | .back => it.nextBackR t

/-- A schedule of calls on the borrowed iterator; each answer is paired with the `size_hint`
reported after it. -/
def Iter.runCallsR (t : Tree K V A) (it : Iter K V) :
    List Dir → Res (List (Option (K × V) × Nat))
  | [] => return []
  | d :: ds => do
    let (o, it) ← it.callR t d
    let rest ← Iter.runCallsR t it ds
    return (o, it.sizeHint) :: rest

/-- `LeafNode::take_data`, src/tree/leaf_node.rs:491-501, without the assertion of line 492. -/
def IntoIter.takeDataR (it : IntoIter K V A) (leafId : Nat) (leaf : Leaf K V) (slot : Nat) :
    Res ((K × V) × IntoIter K V A) :=
  match leaf.data[slot]? with
  | none => .error .ub
  | some kv =>
    if (leafId, slot) ∈ it.taken then .error .ub
    else .ok (kv, { it with taken := (leafId, slot) :: it.taken })

/-- `IntoIter::next`, src/tree/iterator.rs:152-183; `fuel` bounds the recursive calls that only
move to the next leaf. -/
def IntoIter.nextAuxR : Nat → IntoIter K V A → Res (Option (K × V) × IntoIter K V A)
  | 0, _ => .error .fuel
  | fuel + 1, it =>
    if it.len = 0 then return (none, it) else do
    let leaf ← it.store.getLeaf it.pos.1
    if it.pos.2 < leaf.len then
      let (kv, it') ← it.takeDataR it.pos.1 leaf it.pos.2
      return (some kv, { it' with len := it.len - 1, pos := (it.pos.1, it.pos.2 + 1) })
    else
      match leaf.next with
      | some nextId => IntoIter.nextAuxR fuel { it with pos := (nextId, 0) }
      | none => .error .panic

/-- `IntoIter::next`. -/
def IntoIter.nextR (it : IntoIter K V A) : Res (Option (K × V) × IntoIter K V A) :=
  IntoIter.nextAuxR (it.store.leaves.length + 1) it

/-- `IntoIter::next_back`, src/tree/iterator.rs:187-218. -/
def IntoIter.nextBackAuxR : Nat → IntoIter K V A → Res (Option (K × V) × IntoIter K V A)
  | 0, _ => .error .fuel
  | fuel + 1, it =>
    if it.len = 0 then return (none, it) else do
    let leaf ← it.store.getLeaf it.end_.1
    if 0 < it.end_.2 then
      let (kv, it') ← it.takeDataR it.end_.1 leaf (it.end_.2 - 1)
      return (some kv, { it' with len := it.len - 1, end_ := (it.end_.1, it.end_.2 - 1) })
    else
      match leaf.prev with
      | some prevId => do
        let pl ← it.store.getLeaf prevId
        IntoIter.nextBackAuxR fuel { it with end_ := (prevId, pl.len) }
      | none => .error .panic

/-- `IntoIter::next_back`. -/
def IntoIter.nextBackR (it : IntoIter K V A) : Res (Option (K × V) × IntoIter K V A) :=
  IntoIter.nextBackAuxR (it.store.leaves.length + 1) it

/-- One call on the owning iterator. -/
def IntoIter.callR (it : IntoIter K V A) : Dir → Res (Option (K × V) × IntoIter K V A)
  | .front => it.nextR
  | .back => it.nextBackR

/-- A schedule of calls on the owning iterator; each answer is paired with the `size_hint` reported
after it. Returns the final state as well. -/
def IntoIter.runCallsR (it : IntoIter K V A) :
    List Dir → Res (List (Option (K × V) × Nat) × IntoIter K V A)
  | [] => return ([], it)
  | d :: ds => do
    let (o, it) ← it.callR d
    let (rest, it') ← IntoIter.runCallsR it ds
    return ((o, it.sizeHint) :: rest, it')

/-- `Drop for IntoIter`, src/tree/iterator.rs:224-229: `while self.next().is_some() {}`. Returns the
items dropped, in order; `fuel` bounds the loop. -/
def IntoIter.dropAuxR : Nat → IntoIter K V A → Res (List (K × V))
  | 0, _ => .error .fuel
  | fuel + 1, it => do
    let (o, it) ← it.nextR
    match o with
    | none => return []
    | some kv =>
      let rest ← IntoIter.dropAuxR fuel it
      return kv :: rest

/-- `Drop for IntoIter`. -/
def IntoIter.dropR (it : IntoIter K V A) : Res (List (K × V)) :=
  IntoIter.dropAuxR (it.len + 1) it

/-- `Drop for BPlusTree`, src/tree/mod.rs:818-822: `drop(ptr::read(self).into_iter())`. Returns the
items dropped. -/
def Tree.dropR (t : Tree K V A) : Res (List (K × V)) := do
  let it ← t.intoIter
  it.dropR

section Aug
variable [Augmentation K V A]

/-- The leaf loop of `bulk_load`, src/tree/bulk_load.rs:23-50. `set_data` takes up to 64 items
(leaf_node.rs:156-168). `fuel` bounds the number of iterations. Returns the store, the layer and the
item count. -/
def bulkLeavesR : Nat → Store K V A → Option Nat → List (K × V) →
    Res (Store K V A × List (LayerNode K A) × Nat)
  | 0, _, _, _ => .error .fuel
  | fuel + 1, s, prevId, data => do
    let chunk := data.take leafN
    if chunk.isEmpty then
      return (s, [], 0)
    else
      let (s, leafId) := s.reserveLeaf
      let leaf : Leaf K V := { data := chunk, prev := prevId, next := none }
      -- fix the prev leaf's next pointer
      let s ← linkFromPrev s prevId leafId
      let range ← leaf.keyRangeR
      let s ← s.assignLeaf leafId leaf
      let (s, rest, n) ← bulkLeavesR fuel s (some leafId) (data.drop leafN)
      return (s, (.leaf leafId, range, leafAug leaf) :: rest, leaf.len + n)

/-- `bulk_load`, src/tree/bulk_load.rs:8-55, with the answers of `==`. -/
def Tree.bulkLoadUR (eq : Nat → K → K → Bool) (data : List (K × V)) : Res (Tree K V A) :=
  if data.isEmpty then return Tree.new else do
    let items := (dedupU eq 0 data).1
    let (s, nodes, count) ← bulkLeavesR (items.length + 1) (Store.empty : Store K V A) none items
    let (s, root) ← buildInnerLayer (nodes.length + 1) s nodes
    Tree.newFromParts s root count

/-- A call on the tree, with the answers of its comparisons. -/
def Tree.ucallR (t : Tree K V A) (o : Answers K) : UCall K V → Res (Answer K V × Tree K V A)
  | .insert k v => do let (r, t) ← t.insertUR o k v; return (.value r, t)
  | .remove => do let (r, t) ← t.removeUR o; return (.value r, t)
  | .get => do let (r, t) ← t.getUR o; return (.value r, t)
  | .getMut f => do let (r, t) ← t.getMutUR o f; return (.value r, t)
  | .first => do let r ← t.first; return (.entry r, t)
  | .last => do let r ← t.lastR; return (.entry r, t)
  | .len => return (.number t.len, t)
  | .isEmpty => return (.flag t.isEmpty, t)
  | .iter n => do
    let it ← t.iter
    let r ← it.runCallsR t (List.replicate n .front)
    return (.entries (r.map (·.1)), t)
  | .iterBack n => do
    let it ← t.iter
    let r ← it.runCallsR t (List.replicate n .back)
    return (.entries (r.map (·.1)), t)
  | .cursorNext c => do
    let r ← c.nextWithValueUR o t
    return (.entry (r.map (fun p => (p.1.k, p.2))), t)
  | .cursorPrev c => do
    let r ← c.prevWithValueUR o t
    return (.entry (r.map (fun p => (p.1.k, p.2))), t)
  | .cursorValue c => do let r ← c.valueUR o t; return (.value r, t)
  | .getCursor k => do
    match ← t.getCursorU o k with
    | some (c, v) => return (.keyValue c.k v, t)
    | none => return (.done, t)
  | .clear => return (.done, t.clear)

/-- A sequence of calls on the tree, each with its own answers. -/
def Tree.urunR (t : Tree K V A) :
    List (Answers K × UCall K V) → Res (List (Answer K V) × Tree K V A)
  | [] => return ([], t)
  | (o, c) :: cs => do
    let (a, t) ← t.ucallR o c
    let (as, t) ← Tree.urunR t cs
    return (a :: as, t)

end Aug
end Bpt
