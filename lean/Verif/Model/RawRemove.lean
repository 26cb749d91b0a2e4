import Verif.Model.RawTree

/-!
# The tree on raw node arrays: removal (as `Model/Remove.lean`)
-/

namespace Bpt
namespace Raw
variable {K V A : Type}

/-- `key_to_ref`, src/tree/mod.rs:506-532. -/
def Tree.keyToRef [LinearOrder K] (t : Tree K V A) (k : K) : Res (Option EntryRef) := do
  let (stack, leafId) ← descendLeaf t.store (insertDescendStep k) [] t.root
  let l ← t.store.getLeaf leafId
  match ← l.locateSlot k with
  | .found idx => return some ⟨stack, leafId, idx⟩
  | .vacant _ => return none

section
variable [Augmentation K V A]

/-- `try_rotate_right_for_inner_node`, src/tree/tree_remove.rs:235-267. -/
def tryRotateRightInner (s : Store K V A) (node : InnerS K A) (slot : Nat) :
    Res (Option (Store K V A × InnerS K A)) := do
  let rightId ← (← node.childId (slot + 1)).innerIdUnchecked
  let leftId ← (← node.childId slot).innerIdUnchecked
  let prev ← s.getInner leftId
  if innerAbleToLend prev then
    let ((k, c, a), prev) ← prev.pop
    let s := s.setInner leftId prev
    let leftAug ← innerAug V prev
    let (slotKey, node) ← node.setKey slot k
    let right ← s.getInner rightId
    let right ← right.pushFront slotKey c a
    let s := s.setInner rightId right
    let rightAug ← innerAug V right
    let node ← node.setAugmentation slot leftAug
    let node ← node.setAugmentation (slot + 1) rightAug
    return some (s, node)
  else
    return none

/-- `try_rotate_left_for_inner_node`, src/tree/tree_remove.rs:269-302. -/
def tryRotateLeftInner (s : Store K V A) (node : InnerS K A) (slot : Nat) :
    Res (Option (Store K V A × InnerS K A)) := do
  let rightId ← (← node.childId (slot + 1)).innerIdUnchecked
  let leftId ← (← node.childId slot).innerIdUnchecked
  let right ← s.getInner rightId
  if innerAbleToLend right then
    let ((k, c, a), right) ← right.popFront
    let s := s.setInner rightId right
    let rightAug ← innerAug V right
    let (slotKey, node) ← node.setKey slot k
    let left ← s.getInner leftId
    let left ← left.push slotKey c a
    let s := s.setInner leftId left
    let leftAug ← innerAug V left
    let node ← node.setAugmentation slot leftAug
    let node ← node.setAugmentation (slot + 1) rightAug
    return some (s, node)
  else
    return none

/-- `merge_inner_node`, src/tree/tree_remove.rs:304-330. -/
def mergeInnerNode (s : Store K V A) (node : InnerS K A) (slot : Nat) :
    Res (Bool × Store K V A × InnerS K A) := do
  if ¬ slot < node.size then .error .panic
  let leftId ← (← node.childId slot).innerIdUnchecked
  let rightId ← (← node.childId (slot + 1)).innerIdUnchecked
  let (result, slotKey, node) ← node.removeSlotWithRight slot
  let (right, s) ← s.takeInner rightId
  let left ← s.getInner leftId
  let (left, _) ← left.mergeNext slotKey right
  let s := s.setInner leftId left
  let aug ← innerAug V left
  let node ← node.setAugmentation slot aug
  return (result, s, node)

/-- `handle_inner_under_size`, src/tree/tree_remove.rs:97-129. -/
def handleInnerUnderSize (s : Store K V A) (st : Statistic) (node : InnerS K A) (childIdx : Nat)
    (deleted : K × V) : Res (DeleteResult K V × Store K V A × Statistic × InnerS K A) := do
  let rotR ← (if 0 < childIdx then tryRotateRightInner s node (childIdx - 1) else return none :
    Res (Option (Store K V A × InnerS K A)))
  match rotR with
  | some (s, node) =>
    return (.done deleted, s, { st with rotateRightInner := st.rotateRightInner + 1 }, node)
  | none =>
  let rotL ← (if childIdx < node.size then tryRotateLeftInner s node childIdx else return none :
    Res (Option (Store K V A × InnerS K A)))
  match rotL with
  | some (s, node) =>
    return (.done deleted, s, { st with rotateLeftInner := st.rotateLeftInner + 1 }, node)
  | none =>
  let (mergeSlot, st) := if 0 < childIdx
    then (childIdx - 1, { st with mergeWithLeftInner := st.mergeWithLeftInner + 1 })
    else (childIdx, { st with mergeWithRightInner := st.mergeWithRightInner + 1 })
  let (ok, s, node) ← mergeInnerNode s node mergeSlot
  if ok then
    return (.done deleted, s, st, node)
  else
    return (.innerUnderSize deleted, s, st, node)

/-- `rotate_right_for_leaf`, src/tree/tree_remove.rs:332-361. -/
def rotateRightForLeaf (s : Store K V A) (node : InnerS K A) (slot deleteIdx : Nat) :
    Res ((K × V) × Store K V A × InnerS K A) := do
  let leftId ← (← node.childId slot).leafIdUnchecked
  let rightId ← (← node.childId (slot + 1)).leafIdUnchecked
  let left ← s.getLeaf leftId
  if !leafAbleToLend left then .error .panic
  let (kv, left) ← left.pop
  let s := s.setLeaf leftId left
  let leftAug ← leafAug left
  let node ← node.setAugmentation slot leftAug
  let newSlotKey := kv.1
  let right ← s.getLeaf rightId
  let (deleted, right) ← right.deleteWithPushFront deleteIdx kv
  let s := s.setLeaf rightId right
  let rightAug ← leafAug right
  let node ← node.setAugmentation (slot + 1) rightAug
  let s := s.cacheLeaf rightId
  let (_, node) ← node.setKey slot newSlotKey
  return (deleted, s, node)

/-- `rotate_left_for_leaf`, src/tree/tree_remove.rs:363-391. -/
def rotateLeftForLeaf (s : Store K V A) (parent : InnerS K A) (slot deleteIdx : Nat) :
    Res ((K × V) × Store K V A × InnerS K A) := do
  let leftId ← (← parent.childId slot).leafIdUnchecked
  let rightId ← (← parent.childId (slot + 1)).leafIdUnchecked
  let right ← s.getLeaf rightId
  if !leafAbleToLend right then .error .panic
  let (kv, right) ← right.popFront
  let s := s.setLeaf rightId right
  let rightAug ← leafAug right
  let parent ← parent.setAugmentation (slot + 1) rightAug
  let first ← right.dataAt 0
  let newSlotKey := first.1
  let left ← s.getLeaf leftId
  let (deleted, left) ← left.deleteWithPush deleteIdx kv
  let s := s.setLeaf leftId left
  let leftAug ← leafAug left
  let parent ← parent.setAugmentation slot leftAug
  let (_, parent) ← parent.setKey slot newSlotKey
  return (deleted, s.cacheLeaf leftId, parent)

/-- The block `if let Some(next) = left.next() {..}`, src/tree/tree_remove.rs:407-409, 436-438. -/
def relinkNext (s : Store K V A) (left : LeafS K V) (leftId : Nat) : Res (Store K V A) :=
  match left.next with
  | some next => do
    let nl ← s.getLeaf next
    return s.setLeaf next { nl with prev := some leftId }
  | none => return s

/-- `merge_leaf_node_left`, src/tree/tree_remove.rs:393-418. -/
def mergeLeafNodeLeft (s : Store K V A) (parent : InnerS K A) (slot deleteIdx : Nat) :
    Res (DeleteResult K V × Store K V A × InnerS K A) := do
  let leftId ← (← parent.childId slot).leafIdUnchecked
  let rightId ← (← parent.childId (slot + 1)).leafIdUnchecked
  let (right, s) ← s.takeLeaf rightId
  let left ← s.getLeaf leftId
  let (kv, left, _) ← left.mergeRightDeleteFirst deleteIdx right
  let s := s.setLeaf leftId left
  let aug ← leafAug left
  let parent ← parent.setAugmentation slot aug
  let s ← relinkNext s left leftId
  let (ok, _, parent) ← parent.removeSlotWithRight slot
  let s := s.cacheLeaf leftId
  return (if ok then .done kv else .innerUnderSize kv, s, parent)

/-- `merge_leaf_node_with_right`, src/tree/tree_remove.rs:420-447. -/
def mergeLeafNodeWithRight (s : Store K V A) (parent : InnerS K A) (slot deleteIdx : Nat) :
    Res (DeleteResult K V × Store K V A × InnerS K A) := do
  let leftId ← (← parent.childId slot).leafIdUnchecked
  let rightId ← (← parent.childId (slot + 1)).leafIdUnchecked
  let (right, s) ← s.takeLeaf rightId
  let left ← s.getLeaf leftId
  let (kv, left) ← left.deleteAt deleteIdx
  let (left, _) ← left.mergeRight right
  let s := s.setLeaf leftId left
  let aug ← leafAug left
  let parent ← parent.setAugmentation slot aug
  let s ← relinkNext s left leftId
  let (ok, _, parent) ← parent.removeSlotWithRight slot
  let s := s.cacheLeaf leftId
  return (if ok then .done kv else .innerUnderSize kv, s, parent)

/-- The choice of the fix-up, src/tree/tree_remove.rs:154-187. -/
def chooseFix (prev next : Option (LeafS K V)) : Res FixAction :=
  match prev, next with
  | some p, some n =>
    if leafAbleToLend p then
      if leafAbleToLend n then
        if n.size < p.size then return .rotateRight else return .rotateLeft
      else return .rotateRight
    else if leafAbleToLend n then return .rotateLeft
    else return .mergeLeft
  | some p, none => if leafAbleToLend p then return .rotateRight else return .mergeLeft
  | none, some n => if leafAbleToLend n then return .rotateLeft else return .mergeRight
  | none, none => .error .panic

/-- A sibling of the child at `childIdx`, src/tree/tree_remove.rs:138-152. -/
def siblingLeaf (s : Store K V A) (node : InnerS K A) (idx : Nat) : Res (Option (LeafS K V)) := do
  let id ← (← node.childId idx).leafIdUnchecked
  let l ← s.getLeaf id
  return some l

/-- `handle_leaf_under_size`, src/tree/tree_remove.rs:131-233. -/
def handleLeafUnderSize (s : Store K V A) (st : Statistic) (node : InnerS K A)
    (childIdx keyIdx : Nat) : Res (DeleteResult K V × Store K V A × Statistic × InnerS K A) := do
  let prevSibling ← (if 0 < childIdx then siblingLeaf s node (childIdx - 1) else return none :
    Res (Option (LeafS K V)))
  let nextSibling ← (if childIdx < node.size then siblingLeaf s node (childIdx + 1)
    else return none : Res (Option (LeafS K V)))
  match ← chooseFix prevSibling nextSibling with
  | .rotateRight =>
    let (deleted, s, node) ← rotateRightForLeaf s node (childIdx - 1) keyIdx
    return (.done deleted, s, { st with rotateRightLeaf := st.rotateRightLeaf + 1 }, node)
  | .rotateLeft =>
    let (deleted, s, node) ← rotateLeftForLeaf s node childIdx keyIdx
    return (.done deleted, s, { st with rotateLeftLeaf := st.rotateLeftLeaf + 1 }, node)
  | .mergeLeft =>
    let (r, s, node) ← mergeLeafNodeLeft s node (childIdx - 1) keyIdx
    return (r, s, { st with mergeWithLeftLeaf := st.mergeWithLeftLeaf + 1 }, node)
  | .mergeRight =>
    let (r, s, node) ← mergeLeafNodeWithRight s node childIdx keyIdx
    return (r, s, { st with mergeWithRightLeaf := st.mergeWithRightLeaf + 1 }, node)

/-- The fix-up loop of `remove_by_ref`, src/tree/tree_remove.rs:36-60. -/
def removeAscend (s : Store K V A) (st : Statistic) :
    List StackEntry → DeleteResult K V → Res (DeleteResult K V × Store K V A × Statistic)
  | [], r => return (r, s, st)
  | (parentId, childIdx, childId) :: stack, .done kv => do
    let childAug ← newAugmentationForId s childId
    let node ← s.getInner parentId
    let node ← node.setAugmentation childIdx childAug
    removeAscend (s.setInner parentId node) st stack (.done kv)
  | (parentId, childIdx, _) :: stack, .innerUnderSize kv => do
    let parent ← s.getInner parentId
    let (r, s, st, parent) ← handleInnerUnderSize s st parent childIdx kv
    removeAscend (s.setInner parentId parent) st stack r
  | (parentId, childIdx, _) :: stack, .leafUnderSize idx => do
    let parent ← s.getInner parentId
    let (r, s, st, parent) ← handleLeafUnderSize s st parent childIdx idx
    removeAscend (s.setInner parentId parent) st stack r

/-- Root processing of `remove_by_ref`, src/tree/tree_remove.rs:63-91. -/
def removeRoot (s : Store K V A) (root : NodeId) :
    DeleteResult K V → Res ((K × V) × Store K V A × NodeId)
  | .done kv => return (kv, s, root)
  | .innerUnderSize kv => do
    let id ← root.innerIdUnchecked
    let r ← s.getInner id
    if r.size = 0 then
      let c ← r.childId 0
      return (kv, s, c)
    else
      return (kv, s, root)
  | .leafUnderSize idx => do
    let id ← root.leafIdUnchecked
    let l ← s.getLeaf id
    let (kv, l) ← l.deleteAt idx
    return (kv, s.setLeaf id l, root)

/-- `remove_by_ref`, src/tree/tree_remove.rs:18-95. -/
def Tree.removeByRef (t : Tree K V A) (e : EntryRef) : Res ((K × V) × Tree K V A) := do
  let leaf ← t.store.getLeaf e.leafId
  let (leaf, dr) ← leaf.tryDeleteAt e.offset
  let s := t.store.setLeaf e.leafId leaf
  let r : DeleteResult K V := match dr with
    | .done kv => .done kv
    | .underSize idx => .leafUnderSize idx
  let (r, s, st) ← removeAscend s t.st e.stack r
  let (kv, s, root) ← removeRoot s t.root r
  let a ← newAugmentationForId s root
  if t.len = 0 then .error .panic
  return (kv, { root := root, rootAug := a, len := t.len - 1, store := s, st := st })

/-- `remove_impl`, src/tree/tree_remove.rs:8-16. -/
def Tree.removeImpl [LinearOrder K] (t : Tree K V A) (k : K) :
    Res (Option (K × V) × Tree K V A) := do
  match ← t.keyToRef k with
  | none => return (none, t)
  | some e =>
    let (kv, t) ← t.removeByRef e
    return (some kv, t)

/-- `remove`, src/tree/mod.rs:498-504. -/
def Tree.remove [LinearOrder K] (t : Tree K V A) (k : K) : Res (Option V × Tree K V A) := do
  let (r, t) ← t.removeImpl k
  return (r.map (·.2), t)

end
end Raw
end Bpt
