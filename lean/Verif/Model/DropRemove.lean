import Verif.Model.Crash

/-!
# Destructors inside a removal

A removal destroys objects: the removed key, the key of a parent that is replaced or not needed any
more, and every augmentation that is replaced by a new one. Here `remove` is written again so that it
lists the memory in which these destructors run. A destructor that panics unwinds out of the call and
leaves the map as it is at that moment.

* `std::mem::replace(area, MaybeUninit::new(a)).assume_init_drop()` and an assignment `x = a` store the
  new value also when the destructor of the old one panics.
* `let _ = node.set_key(..)` destroys the old key after the new one is stored.
* The items, keys and augmentations in local variables at that moment are destroyed by the unwinding;
  they are not part of the map.

Two destructors of a merge are not listed, because they do not act on a value that the lists of this
model can hold: the one inside `remove_slot_with_right` (src/tree/inner_node.rs:403-457), which runs
while the node still counts the augmentation it destroys (`C59_remove_refuted` is about it), and the
destruction of the emptied right node at the end of `merge_inner_node` (property C36).
-/

namespace Bpt
variable {K V A : Type} [Augmentation K V A]

/-- `try_rotate_right_for_inner_node`, src/tree/tree_remove.rs:235-267: the two `set_augmentation` of
lines 260-261. The key replaced by `set_key` moves to the right node. -/
def tryRotateRightInnerD (pid : Nat) (s : Store K V A) (node : Inner K A) (slot : Nat) :
    Traced (Store K V A) (Option (Store K V A × Inner K A)) := do
  let rightId ← ((do (← node.childId (slot + 1)).innerIdUnchecked) : Res Nat)
  let leftId ← ((do (← node.childId slot).innerIdUnchecked) : Res Nat)
  let prev ← s.getInner leftId
  if prev.ableToLend then
    let ((k, c, a), prev) ← (prev.pop : Res _)
    let s := s.setInner leftId prev
    let leftAug := innerAug V prev
    let (slotKey, node) ← (node.setKey slot k : Res _)
    let right ← s.getInner rightId
    let right ← right.pushFront slotKey c a
    let s := s.setInner rightId right
    let rightAug := innerAug V right
    let node ← node.setAugmentation slot leftAug
    Traced.call .dropAug (s.setInner pid node)
    let node ← node.setAugmentation (slot + 1) rightAug
    Traced.call .dropAug (s.setInner pid node)
    return some (s, node)
  else
    return none

/-- `try_rotate_left_for_inner_node`, src/tree/tree_remove.rs:269-302: the two `set_augmentation` of
lines 295-296. -/
def tryRotateLeftInnerD (pid : Nat) (s : Store K V A) (node : Inner K A) (slot : Nat) :
    Traced (Store K V A) (Option (Store K V A × Inner K A)) := do
  let rightId ← ((do (← node.childId (slot + 1)).innerIdUnchecked) : Res Nat)
  let leftId ← ((do (← node.childId slot).innerIdUnchecked) : Res Nat)
  let right ← s.getInner rightId
  if right.ableToLend then
    let ((k, c, a), right) ← (right.popFront : Res _)
    let s := s.setInner rightId right
    let rightAug := innerAug V right
    let (slotKey, node) ← (node.setKey slot k : Res _)
    let left ← s.getInner leftId
    let left ← left.push slotKey c a
    let s := s.setInner leftId left
    let leftAug := innerAug V left
    let node ← node.setAugmentation slot leftAug
    Traced.call .dropAug (s.setInner pid node)
    let node ← node.setAugmentation (slot + 1) rightAug
    Traced.call .dropAug (s.setInner pid node)
    return some (s, node)
  else
    return none

/-- `merge_inner_node`, src/tree/tree_remove.rs:304-330: the `set_augmentation` of line 327. Not
listed: see the head of this file. -/
def mergeInnerNodeD (pid : Nat) (s : Store K V A) (node : Inner K A) (slot : Nat) :
    Traced (Store K V A) (Bool × Store K V A × Inner K A) := do
  if ¬ slot < node.len then (.error .panic : Res Unit)
  let leftId ← ((do (← node.childId slot).innerIdUnchecked) : Res Nat)
  let rightId ← ((do (← node.childId (slot + 1)).innerIdUnchecked) : Res Nat)
  let (result, slotKey, node) ← (node.removeSlotWithRight slot : Res _)
  let (right, s) ← (s.takeInner rightId : Res _)
  let left ← s.getInner leftId
  let left ← left.mergeNext slotKey right
  let s := s.setInner leftId left
  let node ← node.setAugmentation slot (innerAug V left)
  Traced.call .dropAug (s.setInner pid node)
  return (result, s, node)

/-- `handle_inner_under_size`, src/tree/tree_remove.rs:97-129. -/
def handleInnerUnderSizeD (pid : Nat) (s : Store K V A) (st : Statistic) (node : Inner K A)
    (childIdx : Nat) (deleted : K × V) :
    Traced (Store K V A × Statistic) (DeleteResult K V × Store K V A × Statistic × Inner K A) := do
  let rotR ← (if 0 < childIdx
    then Traced.mapMem (·, st) (tryRotateRightInnerD pid s node (childIdx - 1))
    else return none : Traced (Store K V A × Statistic) (Option (Store K V A × Inner K A)))
  match rotR with
  | some (s, node) =>
    return (.done deleted, s, { st with rotateRightInner := st.rotateRightInner + 1 }, node)
  | none =>
  let rotL ← (if childIdx < node.len
    then Traced.mapMem (·, st) (tryRotateLeftInnerD pid s node childIdx)
    else return none : Traced (Store K V A × Statistic) (Option (Store K V A × Inner K A)))
  match rotL with
  | some (s, node) =>
    return (.done deleted, s, { st with rotateLeftInner := st.rotateLeftInner + 1 }, node)
  | none =>
  let (mergeSlot, st) := if 0 < childIdx
    then (childIdx - 1, { st with mergeWithLeftInner := st.mergeWithLeftInner + 1 })
    else (childIdx, { st with mergeWithRightInner := st.mergeWithRightInner + 1 })
  let (ok, s, node) ← Traced.mapMem (·, st) (mergeInnerNodeD pid s node mergeSlot)
  if ok then
    return (.done deleted, s, st, node)
  else
    return (.innerUnderSize deleted, s, st, node)

/-- `rotate_right_for_leaf`, src/tree/tree_remove.rs:332-361: the `set_augmentation` of lines 345 and
350, and the old key of the parent on line 358. -/
def rotateRightForLeafD (pid : Nat) (s : Store K V A) (node : Inner K A) (slot deleteIdx : Nat) :
    Traced (Store K V A) ((K × V) × Store K V A × Inner K A) := do
  let leftId ← ((do (← node.childId slot).leafIdUnchecked) : Res Nat)
  let rightId ← ((do (← node.childId (slot + 1)).leafIdUnchecked) : Res Nat)
  let left ← s.getLeaf leftId
  if !left.ableToLend then (.error .panic : Res Unit)
  let (kv, left) ← (left.pop : Res _)
  let s := s.setLeaf leftId left
  let node ← node.setAugmentation slot (leafAug left)
  Traced.call .dropAug (s.setInner pid node)
  let newSlotKey := kv.1
  let right ← s.getLeaf rightId
  let (deleted, right) ← (right.deleteWithPushFront deleteIdx kv : Res _)
  let s := s.setLeaf rightId right
  let node ← node.setAugmentation (slot + 1) (leafAug right)
  Traced.call .dropAug (s.setInner pid node)
  let s := s.cacheLeaf rightId
  let (_, node) ← (node.setKey slot newSlotKey : Res _)
  Traced.call .dropKey (s.setInner pid node)
  return (deleted, s, node)

/-- `rotate_left_for_leaf`, src/tree/tree_remove.rs:363-391: the `set_augmentation` of lines 376 and
384, and the old key of the parent on line 387, before the cache is set. -/
def rotateLeftForLeafD (pid : Nat) (s : Store K V A) (parent : Inner K A) (slot deleteIdx : Nat) :
    Traced (Store K V A) ((K × V) × Store K V A × Inner K A) := do
  let leftId ← ((do (← parent.childId slot).leafIdUnchecked) : Res Nat)
  let rightId ← ((do (← parent.childId (slot + 1)).leafIdUnchecked) : Res Nat)
  let right ← s.getLeaf rightId
  if !right.ableToLend then (.error .panic : Res Unit)
  let (kv, right) ← (right.popFront : Res _)
  let s := s.setLeaf rightId right
  let parent ← parent.setAugmentation (slot + 1) (leafAug right)
  Traced.call .dropAug (s.setInner pid parent)
  let first ← right.dataAt 0
  let newSlotKey := first.1
  let left ← s.getLeaf leftId
  let (deleted, left) ← (left.deleteWithPush deleteIdx kv : Res _)
  let s := s.setLeaf leftId left
  let parent ← parent.setAugmentation slot (leafAug left)
  Traced.call .dropAug (s.setInner pid parent)
  let (_, parent) ← (parent.setKey slot newSlotKey : Res _)
  Traced.call .dropKey (s.setInner pid parent)
  return (deleted, s.cacheLeaf leftId, parent)

/-- `merge_leaf_node_left`, src/tree/tree_remove.rs:393-418: the `set_augmentation` of line 405, when
the right leaf has left the store and the parent still names it, and `_removed_k` of lines 412-413,
before the cache is set. Not listed: see the head of this file. -/
def mergeLeafNodeLeftD (pid : Nat) (s : Store K V A) (parent : Inner K A) (slot deleteIdx : Nat) :
    Traced (Store K V A) (DeleteResult K V × Store K V A × Inner K A) := do
  let leftId ← ((do (← parent.childId slot).leafIdUnchecked) : Res Nat)
  let rightId ← ((do (← parent.childId (slot + 1)).leafIdUnchecked) : Res Nat)
  let (right, s) ← (s.takeLeaf rightId : Res _)
  let left ← s.getLeaf leftId
  let (kv, left) ← (left.mergeRightDeleteFirst deleteIdx right : Res _)
  let s := s.setLeaf leftId left
  let parent ← parent.setAugmentation slot (leafAug left)
  Traced.call .dropAug (s.setInner pid parent)
  let s ← relinkNext s left leftId
  let (ok, _, parent) ← (parent.removeSlotWithRight slot : Res _)
  Traced.call .dropKey (s.setInner pid parent)
  let s := s.cacheLeaf leftId
  return (if ok then .done kv else .innerUnderSize kv, s, parent)

/-- `merge_leaf_node_with_right`, src/tree/tree_remove.rs:420-447: the `set_augmentation` of line 434
and `_removed_k` of lines 442-443. -/
def mergeLeafNodeWithRightD (pid : Nat) (s : Store K V A) (parent : Inner K A)
    (slot deleteIdx : Nat) :
    Traced (Store K V A) (DeleteResult K V × Store K V A × Inner K A) := do
  let leftId ← ((do (← parent.childId slot).leafIdUnchecked) : Res Nat)
  let rightId ← ((do (← parent.childId (slot + 1)).leafIdUnchecked) : Res Nat)
  let (right, s) ← (s.takeLeaf rightId : Res _)
  let left ← s.getLeaf leftId
  let (kv, left) ← (left.deleteAt deleteIdx : Res _)
  let left ← left.mergeRight right
  let s := s.setLeaf leftId left
  let parent ← parent.setAugmentation slot (leafAug left)
  Traced.call .dropAug (s.setInner pid parent)
  let s ← relinkNext s left leftId
  let (ok, _, parent) ← (parent.removeSlotWithRight slot : Res _)
  Traced.call .dropKey (s.setInner pid parent)
  let s := s.cacheLeaf leftId
  return (if ok then .done kv else .innerUnderSize kv, s, parent)

/-- `handle_leaf_under_size`, src/tree/tree_remove.rs:131-233. -/
def handleLeafUnderSizeD (pid : Nat) (s : Store K V A) (st : Statistic) (node : Inner K A)
    (childIdx keyIdx : Nat) :
    Traced (Store K V A × Statistic) (DeleteResult K V × Store K V A × Statistic × Inner K A) := do
  let prevSibling ← (if 0 < childIdx then do
      let id ← (← node.childId (childIdx - 1)).leafIdUnchecked
      let l ← s.getLeaf id
      return some l
    else return none : Res (Option (Leaf K V)))
  let nextSibling ← (if childIdx < node.len then do
      let id ← (← node.childId (childIdx + 1)).leafIdUnchecked
      let l ← s.getLeaf id
      return some l
    else return none : Res (Option (Leaf K V)))
  match ← (chooseFix prevSibling nextSibling : Res _) with
  | .rotateRight =>
    let (deleted, s, node) ←
      Traced.mapMem (·, st) (rotateRightForLeafD pid s node (childIdx - 1) keyIdx)
    return (.done deleted, s, { st with rotateRightLeaf := st.rotateRightLeaf + 1 }, node)
  | .rotateLeft =>
    let (deleted, s, node) ← Traced.mapMem (·, st) (rotateLeftForLeafD pid s node childIdx keyIdx)
    return (.done deleted, s, { st with rotateLeftLeaf := st.rotateLeftLeaf + 1 }, node)
  | .mergeLeft =>
    let st := { st with mergeWithLeftLeaf := st.mergeWithLeftLeaf + 1 }
    let (r, s, node) ← Traced.mapMem (·, st) (mergeLeafNodeLeftD pid s node (childIdx - 1) keyIdx)
    return (r, s, st, node)
  | .mergeRight =>
    let st := { st with mergeWithRightLeaf := st.mergeWithRightLeaf + 1 }
    let (r, s, node) ← Traced.mapMem (·, st) (mergeLeafNodeWithRightD pid s node childIdx keyIdx)
    return (r, s, st, node)

/-- The fix-up loop of `remove_by_ref` over the visit stack, src/tree/tree_remove.rs:36-60: the
`set_augmentation` of line 44. -/
def removeAscendD (s : Store K V A) (st : Statistic) :
    List StackEntry → DeleteResult K V →
      Traced (Store K V A × Statistic) (DeleteResult K V × Store K V A × Statistic)
  | [], r => return (r, s, st)
  | (parentId, childIdx, childId) :: stack, .done kv => do
    let childAug ← (newAugmentationForId s childId : Res _)
    let node ← s.getInner parentId
    let node ← node.setAugmentation childIdx childAug
    Traced.call .dropAug (s.setInner parentId node, st)
    removeAscendD (s.setInner parentId node) st stack (.done kv)
  | (parentId, childIdx, _) :: stack, .innerUnderSize kv => do
    let parent ← s.getInner parentId
    let (r, s, st, parent) ← handleInnerUnderSizeD parentId s st parent childIdx kv
    removeAscendD (s.setInner parentId parent) st stack r
  | (parentId, childIdx, _) :: stack, .leafUnderSize idx => do
    let parent ← s.getInner parentId
    let (r, s, st, parent) ← handleLeafUnderSizeD parentId s st parent childIdx idx
    removeAscendD (s.setInner parentId parent) st stack r

/-- `remove_by_ref`, src/tree/tree_remove.rs:18-95: the assignment of `root_augmentation` on lines
86-87, before the length is changed. -/
def Tree.removeByRefD (t : Tree K V A) (e : EntryRef) :
    Traced (Tree K V A) ((K × V) × Tree K V A) := do
  let leaf ← t.store.getLeaf e.leafId
  let (leaf, dr) ← (leaf.tryDeleteAt e.offset : Res _)
  let s := t.store.setLeaf e.leafId leaf
  let r : DeleteResult K V := match dr with
    | .done kv => .done kv
    | .underSize idx => .leafUnderSize idx
  let (r, s, st) ← Traced.mapMem (fun m => { t with store := m.1, st := m.2 })
    (removeAscendD s t.st e.stack r)
  let (kv, s, root) ← (removeRoot s t.root r : Res _)
  let a ← (newAugmentationForId s root : Res _)
  Traced.call .dropAug { t with store := s, st := st, root := root, rootAug := a }
  if t.len = 0 then (.error .panic : Res Unit)
  return (kv, { root := root, rootAug := a, len := t.len - 1, store := s, st := st })

/-- `remove`, src/tree/mod.rs:498-504: `.map(|kv| kv.1)` drops the removed key when the map is
complete. `remove_impl` is src/tree/tree_remove.rs:8-16, `key_to_ref` src/tree/mod.rs:506-532. -/
def Tree.removeD (o : Answers K) (t : Tree K V A) : Traced (Tree K V A) (Option V × Tree K V A) := do
  match ← (t.keyToRefU o : Res _) with
  | none => return (none, t)
  | some e =>
    let (kv, t) ← t.removeByRefD e
    Traced.call .dropKey t
    return (some kv.2, t)

end Bpt
