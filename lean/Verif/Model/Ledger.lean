import Verif.LawlessHistory

/-!
# Where keys and augmentations are made and destroyed

`K::clone`, `Augmentation::from_leaf` and `from_inner` make new objects; an object ends when it is
dropped. Here the functions that change the tree are written again so that they also list these
events. Moves are not listed. Keys inside cursors belong to the caller and are not listed.
-/

namespace Bpt
variable {K V A : Type}

/-- An object is made or dropped. -/
inductive Event (K A : Type) where
  /-- `K::clone` -/
  | cloneKey (k : K)
  /-- a key is dropped -/
  | dropKey (k : K)
  /-- `Augmentation::from_leaf`, `from_inner`, `default` or `clone` -/
  | makeAug (a : A)
  /-- an augmentation is dropped by its owner -/
  | dropAug (a : A)
  /-- an augmentation is dropped at a place it has been moved away from: it lives on in the new place -/
  | dropMovedAug (a : A)
deriving DecidableEq

/-- A program together with the list of its events. -/
structure Logged (K A α : Type) where
  log : List (Event K A)
  result : Res α

namespace Logged
variable {α β : Type}

instance : Monad (Logged K A) where
  pure a := ⟨[], .ok a⟩
  bind x f := match x.result with
    | .ok a => ⟨x.log ++ (f a).log, (f a).result⟩
    | .error e => ⟨x.log, .error e⟩

/-- Code without events. -/
instance : MonadLift Res (Logged K A) where
  monadLift x := ⟨[], x⟩

/-- These events happen. -/
def emit (es : List (Event K A)) : Logged K A Unit := ⟨es, .ok ()⟩

end Logged

/-- `set_augmentation`, src/tree/inner_node.rs:195-201: the old value is dropped. -/
def Inner.setAugmentationL (n : Inner K A) (idx : Nat) (a : A) : Logged K A (Inner K A) := do
  let n' ← n.setAugmentation idx a
  Logged.emit (n.augs[idx]?.toList.map .dropAug)
  return n'

/-- `remove_slot_with_right`, src/tree/inner_node.rs:401-419: the augmentation that
`slice_remove` returns (lines 405-408) is dropped, the key is returned. -/
def Inner.removeSlotWithRightL (n : Inner K A) (slot : Nat) : Logged K A (Bool × K × Inner K A) := do
  let r ← n.removeSlotWithRight slot
  Logged.emit (n.augs[slot + 1]?.toList.map .dropAug)
  return r

/-- `Drop for InnerNode`, src/tree/inner_node.rs:25-38: the keys `..size` and the augmentations
`..size + 1`, which are the lists of the model. -/
def Inner.dropEvents (n : Inner K A) : List (Event K A) :=
  n.keys.map .dropKey ++ n.augs.map .dropAug

section Aug
variable [Augmentation K V A]

/-- `new_augmentation_for_id`, src/tree/mod.rs:298-309. -/
def newAugmentationL (s : Store K V A) (id : NodeId) : Logged K A A := do
  let a ← newAugmentationForId s id
  Logged.emit [.makeAug a]
  return a

/-- `from_leaf(leaf.keys(), leaf.values())`. -/
def leafAugL (l : Leaf K V) : Logged K A A := do
  Logged.emit [.makeAug (leafAug l)]
  return leafAug l

variable (V) in
/-- `from_inner(inner.keys(), inner.augmentations())`. -/
def innerAugL (n : Inner K A) : Logged K A A := do
  Logged.emit [.makeAug (innerAug V n)]
  return innerAug V n

omit [Augmentation K V A] in
/-- `insert_leaf`, src/tree/mod.rs:311-341. On an update `try_upsert` drops the new key
(leaf_node.rs:213-221); on a split the first key of the right leaf is cloned (line 322). -/
def insertLeafL (o : Answers K) (s : Store K V A) (id : Nat) (k : K) (v : V) :
    Logged K A (Store K V A × InsertResult K V) := do
  let leaf ← s.getLeaf id
  let slot ← leaf.locateSlotU o
  match ← (leaf.upsertAt slot k v : Res _) with
  | (leaf', .inserted) => return ((s.setLeaf id leaf').cacheLeaf id, .inserted)
  | (leaf', .updated v0) =>
    Logged.emit [.dropKey k]
    return (s.setLeaf id leaf', .updated v0)
  | (_, .isFull idx k v) =>
    let (s, rightId) := s.reserveLeaf
    let lLeaf ← s.getLeaf id
    let (lLeaf, rLeaf) ← (lLeaf.splitNewLeaf idx (k, v) rightId id : Res _)
    let s := s.setLeaf id lLeaf
    let kv ← rLeaf.dataAt 0
    Logged.emit [.cloneKey kv.1]
    let s ← (match rLeaf.next with
      | some next => do
        let nl ← s.getLeaf next
        return s.setLeaf next (nl.setPrev (some rightId))
      | none => return s : Res (Store K V A))
    let s ← s.assignLeaf rightId rLeaf
    let updatedId := if splitOrigin ≤ idx then rightId else id
    return (s.cacheLeaf updatedId, .split kv.1 (.leaf rightId))

/-- The ascend loop of `insert_inner`, src/tree/mod.rs:246-295. -/
def insertAscendL (s : Store K V A) :
    List StackEntry → InsertResult K V → Logged K A (Store K V A × InsertResult K V)
  | [], r => return (s, r)
  | (id, childIdx, childId) :: stack, .split key rightChild => do
    let rightAug ← newAugmentationL s rightChild
    let childAug ← newAugmentationL s childId
    let node ← s.getInner id
    let node ← node.setAugmentationL childIdx childAug
    if !node.isFull then
      let node ← node.insertAt childIdx key rightChild rightAug
      insertAscendL (s.setInner id node) stack .inserted
    else
      let (promptK, node, newNode) ← (node.split childIdx key rightChild rightAug : Res _)
      let (s, newId) := (s.setInner id node).addInner newNode
      insertAscendL s stack (.split promptK (.inner newId))
  | (id, childIdx, childId) :: stack, .inserted => do
    let childAug ← newAugmentationL s childId
    let node ← s.getInner id
    let node ← node.setAugmentationL childIdx childAug
    insertAscendL (s.setInner id node) stack .inserted
  | (id, childIdx, childId) :: stack, .updated v => do
    let childAug ← newAugmentationL s childId
    let node ← s.getInner id
    let node ← node.setAugmentationL childIdx childAug
    insertAscendL (s.setInner id node) stack (.updated v)

/-- `descend_insert`, src/tree/mod.rs:213-223, with `insert_inner` (225-296). -/
def descendInsertL (o : Answers K) (s : Store K V A) (nodeId : NodeId) (k : K) (v : V) :
    Logged K A (Store K V A × InsertResult K V) :=
  match nodeId with
  | .inner id => do
    let (stack, leafId) ← (descendLeaf s (stackStepU o) [] (.inner id) : Res _)
    let (s, r) ← insertLeafL o s leafId k v
    insertAscendL s stack r
  | .leaf id => insertLeafL o s id k v

/-- The end of `BPlusTree::insert`, src/tree/mod.rs:166-197; assigning `root_augmentation` drops the
old one. -/
def Tree.finishInsertL (t : Tree K V A) (s : Store K V A) (r : InsertResult K V) :
    Logged K A (Option V × Tree K V A) :=
  match r with
  | .inserted => do
    let a ← newAugmentationL s t.root
    Logged.emit [.dropAug t.rootAug]
    return (none, { t with store := s, rootAug := a, len := t.len + 1 })
  | .updated prev => do
    let a ← newAugmentationL s t.root
    Logged.emit [.dropAug t.rootAug]
    return (some prev, { t with store := s, rootAug := a })
  | .split k newChild => do
    let prevRootAug ← newAugmentationL s t.root
    let newAug ← newAugmentationL s newChild
    let newRoot ← Inner.newFromIter [k] [t.root, newChild] [prevRootAug, newAug]
    let newRootAug ← innerAugL V newRoot
    let (s, newRootId) := s.addInner newRoot
    Logged.emit [.dropAug t.rootAug]
    return (none, { t with
      store := s, root := .inner newRootId, rootAug := newRootAug, len := t.len + 1 })

/-- `BPlusTree::insert`, src/tree/mod.rs:156-197. -/
def Tree.insertL (o : Answers K) (t : Tree K V A) (k : K) (v : V) :
    Logged K A (Option V × Tree K V A) := do
  let (s, r) ← descendInsertL o t.store t.root k v
  t.finishInsertL s r

/-- `try_rotate_right_for_inner_node`, src/tree/tree_remove.rs:235-267. -/
def tryRotateRightInnerL (s : Store K V A) (node : Inner K A) (slot : Nat) :
    Logged K A (Option (Store K V A × Inner K A)) := do
  let rightId ← ((do (← node.childId (slot + 1)).innerIdUnchecked) : Res Nat)
  let leftId ← ((do (← node.childId slot).innerIdUnchecked) : Res Nat)
  let prev ← s.getInner leftId
  if prev.ableToLend then
    let ((k, c, a), prev) ← (prev.pop : Res _)
    let s := s.setInner leftId prev
    let leftAug ← innerAugL V prev
    let (slotKey, node) ← (node.setKey slot k : Res _)
    let right ← s.getInner rightId
    let right ← right.pushFront slotKey c a
    let s := s.setInner rightId right
    let rightAug ← innerAugL V right
    let node ← node.setAugmentationL slot leftAug
    let node ← node.setAugmentationL (slot + 1) rightAug
    return some (s, node)
  else
    return none

/-- `try_rotate_left_for_inner_node`, src/tree/tree_remove.rs:269-302. -/
def tryRotateLeftInnerL (s : Store K V A) (node : Inner K A) (slot : Nat) :
    Logged K A (Option (Store K V A × Inner K A)) := do
  let rightId ← ((do (← node.childId (slot + 1)).innerIdUnchecked) : Res Nat)
  let leftId ← ((do (← node.childId slot).innerIdUnchecked) : Res Nat)
  let right ← s.getInner rightId
  if right.ableToLend then
    let ((k, c, a), right) ← (right.popFront : Res _)
    let s := s.setInner rightId right
    let rightAug ← innerAugL V right
    let (slotKey, node) ← (node.setKey slot k : Res _)
    let left ← s.getInner leftId
    let left ← left.push slotKey c a
    let s := s.setInner leftId left
    let leftAug ← innerAugL V left
    let node ← node.setAugmentationL slot leftAug
    let node ← node.setAugmentationL (slot + 1) rightAug
    return some (s, node)
  else
    return none

/-- `merge_inner_node`, src/tree/tree_remove.rs:304-330. `merge_next` moves everything out of `right`
and sets its size to 0 (inner_node.rs:421-446); when `right` is dropped at the end of the function,
`Drop for InnerNode` drops the augmentations `..0 + 1` of it, one of those moved. -/
def mergeInnerNodeL (s : Store K V A) (node : Inner K A) (slot : Nat) :
    Logged K A (Bool × Store K V A × Inner K A) := do
  if ¬ slot < node.len then (.error .panic : Res Unit)
  let leftId ← ((do (← node.childId slot).innerIdUnchecked) : Res Nat)
  let rightId ← ((do (← node.childId (slot + 1)).innerIdUnchecked) : Res Nat)
  let (result, slotKey, node) ← node.removeSlotWithRightL slot
  let (right, s) ← (s.takeInner rightId : Res _)
  let left ← s.getInner leftId
  let left ← left.mergeNext slotKey right
  let s := s.setInner leftId left
  let a ← innerAugL V left
  let node ← node.setAugmentationL slot a
  Logged.emit ((right.augs.take 1).map .dropMovedAug)
  return (result, s, node)

/-- `handle_inner_under_size`, src/tree/tree_remove.rs:97-129. -/
def handleInnerUnderSizeL (s : Store K V A) (st : Statistic) (node : Inner K A)
    (childIdx : Nat) (deleted : K × V) :
    Logged K A (DeleteResult K V × Store K V A × Statistic × Inner K A) := do
  let rotR ← (if 0 < childIdx then tryRotateRightInnerL s node (childIdx - 1) else return none :
    Logged K A (Option (Store K V A × Inner K A)))
  match rotR with
  | some (s, node) =>
    return (.done deleted, s, { st with rotateRightInner := st.rotateRightInner + 1 }, node)
  | none =>
  let rotL ← (if childIdx < node.len then tryRotateLeftInnerL s node childIdx else return none :
    Logged K A (Option (Store K V A × Inner K A)))
  match rotL with
  | some (s, node) =>
    return (.done deleted, s, { st with rotateLeftInner := st.rotateLeftInner + 1 }, node)
  | none =>
  let (mergeSlot, st) := if 0 < childIdx
    then (childIdx - 1, { st with mergeWithLeftInner := st.mergeWithLeftInner + 1 })
    else (childIdx, { st with mergeWithRightInner := st.mergeWithRightInner + 1 })
  let (ok, s, node) ← mergeInnerNodeL s node mergeSlot
  if ok then
    return (.done deleted, s, st, node)
  else
    return (.innerUnderSize deleted, s, st, node)

/-- `rotate_right_for_leaf`, src/tree/tree_remove.rs:332-361: the key handed over is cloned for the
parent, whose old key is dropped. -/
def rotateRightForLeafL (s : Store K V A) (node : Inner K A) (slot deleteIdx : Nat) :
    Logged K A ((K × V) × Store K V A × Inner K A) := do
  let leftId ← ((do (← node.childId slot).leafIdUnchecked) : Res Nat)
  let rightId ← ((do (← node.childId (slot + 1)).leafIdUnchecked) : Res Nat)
  let left ← s.getLeaf leftId
  if !left.ableToLend then (.error .panic : Res Unit)
  let (kv, left) ← (left.pop : Res _)
  let s := s.setLeaf leftId left
  let a ← leafAugL left
  let node ← node.setAugmentationL slot a
  Logged.emit [.cloneKey kv.1]
  let newSlotKey := kv.1
  let right ← s.getLeaf rightId
  let (deleted, right) ← (right.deleteWithPushFront deleteIdx kv : Res _)
  let s := s.setLeaf rightId right
  let b ← leafAugL right
  let node ← node.setAugmentationL (slot + 1) b
  let s := s.cacheLeaf rightId
  let (old, node) ← (node.setKey slot newSlotKey : Res _)
  Logged.emit [.dropKey old]
  return (deleted, s, node)

/-- `rotate_left_for_leaf`, src/tree/tree_remove.rs:363-391. -/
def rotateLeftForLeafL (s : Store K V A) (parent : Inner K A) (slot deleteIdx : Nat) :
    Logged K A ((K × V) × Store K V A × Inner K A) := do
  let leftId ← ((do (← parent.childId slot).leafIdUnchecked) : Res Nat)
  let rightId ← ((do (← parent.childId (slot + 1)).leafIdUnchecked) : Res Nat)
  let right ← s.getLeaf rightId
  if !right.ableToLend then (.error .panic : Res Unit)
  let (kv, right) ← (right.popFront : Res _)
  let s := s.setLeaf rightId right
  let a ← leafAugL right
  let parent ← parent.setAugmentationL (slot + 1) a
  let first ← right.dataAt 0
  Logged.emit [.cloneKey first.1]
  let newSlotKey := first.1
  let left ← s.getLeaf leftId
  let (deleted, left) ← (left.deleteWithPush deleteIdx kv : Res _)
  let s := s.setLeaf leftId left
  let b ← leafAugL left
  let parent ← parent.setAugmentationL slot b
  let (old, parent) ← (parent.setKey slot newSlotKey : Res _)
  Logged.emit [.dropKey old]
  return (deleted, s.cacheLeaf leftId, parent)

/-- `merge_leaf_node_left`, src/tree/tree_remove.rs:393-418: the key taken out of the parent is
dropped. The emptied right leaf drops nothing: `LeafNode` has no `Drop`. -/
def mergeLeafNodeLeftL (s : Store K V A) (parent : Inner K A) (slot deleteIdx : Nat) :
    Logged K A (DeleteResult K V × Store K V A × Inner K A) := do
  let leftId ← ((do (← parent.childId slot).leafIdUnchecked) : Res Nat)
  let rightId ← ((do (← parent.childId (slot + 1)).leafIdUnchecked) : Res Nat)
  let (right, s) ← (s.takeLeaf rightId : Res _)
  let left ← s.getLeaf leftId
  let (kv, left) ← (left.mergeRightDeleteFirst deleteIdx right : Res _)
  let s := s.setLeaf leftId left
  let a ← leafAugL left
  let parent ← parent.setAugmentationL slot a
  let s ← relinkNext s left leftId
  let (ok, old, parent) ← parent.removeSlotWithRightL slot
  Logged.emit [.dropKey old]
  let s := s.cacheLeaf leftId
  return (if ok then .done kv else .innerUnderSize kv, s, parent)

/-- `merge_leaf_node_with_right`, src/tree/tree_remove.rs:420-447. -/
def mergeLeafNodeWithRightL (s : Store K V A) (parent : Inner K A) (slot deleteIdx : Nat) :
    Logged K A (DeleteResult K V × Store K V A × Inner K A) := do
  let leftId ← ((do (← parent.childId slot).leafIdUnchecked) : Res Nat)
  let rightId ← ((do (← parent.childId (slot + 1)).leafIdUnchecked) : Res Nat)
  let (right, s) ← (s.takeLeaf rightId : Res _)
  let left ← s.getLeaf leftId
  let (kv, left) ← (left.deleteAt deleteIdx : Res _)
  let left ← left.mergeRight right
  let s := s.setLeaf leftId left
  let a ← leafAugL left
  let parent ← parent.setAugmentationL slot a
  let s ← relinkNext s left leftId
  let (ok, old, parent) ← parent.removeSlotWithRightL slot
  Logged.emit [.dropKey old]
  let s := s.cacheLeaf leftId
  return (if ok then .done kv else .innerUnderSize kv, s, parent)

/-- `handle_leaf_under_size`, src/tree/tree_remove.rs:131-233. -/
def handleLeafUnderSizeL (s : Store K V A) (st : Statistic) (node : Inner K A)
    (childIdx keyIdx : Nat) :
    Logged K A (DeleteResult K V × Store K V A × Statistic × Inner K A) := do
  let prevSibling ← (if 0 < childIdx then do
      let id ← (← node.childId (childIdx - 1)).leafIdUnchecked
      let l ← s.getLeaf id
      return some l
    else return none : Res (Option (Leaf K V)))
  let nextSibling ← (if childIdx < node.len then do
      let id ← (← node.childId (childIdx + 1)).leafIdUnchecked
      let l ← s.getLeaf id
      return some l
    else return none : Res (Option (Leaf K V)))
  match ← (chooseFix prevSibling nextSibling : Res _) with
  | .rotateRight =>
    let (deleted, s, node) ← rotateRightForLeafL s node (childIdx - 1) keyIdx
    return (.done deleted, s, { st with rotateRightLeaf := st.rotateRightLeaf + 1 }, node)
  | .rotateLeft =>
    let (deleted, s, node) ← rotateLeftForLeafL s node childIdx keyIdx
    return (.done deleted, s, { st with rotateLeftLeaf := st.rotateLeftLeaf + 1 }, node)
  | .mergeLeft =>
    let (r, s, node) ← mergeLeafNodeLeftL s node (childIdx - 1) keyIdx
    return (r, s, { st with mergeWithLeftLeaf := st.mergeWithLeftLeaf + 1 }, node)
  | .mergeRight =>
    let (r, s, node) ← mergeLeafNodeWithRightL s node childIdx keyIdx
    return (r, s, { st with mergeWithRightLeaf := st.mergeWithRightLeaf + 1 }, node)

/-- The fix-up loop of `remove_by_ref` over the visit stack, src/tree/tree_remove.rs:36-60. -/
def removeAscendL (s : Store K V A) (st : Statistic) :
    List StackEntry → DeleteResult K V → Logged K A (DeleteResult K V × Store K V A × Statistic)
  | [], r => return (r, s, st)
  | (parentId, childIdx, childId) :: stack, .done kv => do
    let childAug ← newAugmentationL s childId
    let node ← s.getInner parentId
    let node ← node.setAugmentationL childIdx childAug
    removeAscendL (s.setInner parentId node) st stack (.done kv)
  | (parentId, childIdx, _) :: stack, .innerUnderSize kv => do
    let parent ← s.getInner parentId
    let (r, s, st, parent) ← handleInnerUnderSizeL s st parent childIdx kv
    removeAscendL (s.setInner parentId parent) st stack r
  | (parentId, childIdx, _) :: stack, .leafUnderSize idx => do
    let parent ← s.getInner parentId
    let (r, s, st, parent) ← handleLeafUnderSizeL s st parent childIdx idx
    removeAscendL (s.setInner parentId parent) st stack r

/-- `remove_by_ref`, src/tree/tree_remove.rs:18-95. A root that is replaced by its only child stays in
the store. -/
def Tree.removeByRefL (t : Tree K V A) (e : EntryRef) : Logged K A ((K × V) × Tree K V A) := do
  let leaf ← t.store.getLeaf e.leafId
  let (leaf, dr) ← (leaf.tryDeleteAt e.offset : Res _)
  let s := t.store.setLeaf e.leafId leaf
  let r : DeleteResult K V := match dr with
    | .done kv => .done kv
    | .underSize idx => .leafUnderSize idx
  let (r, s, st) ← removeAscendL s t.st e.stack r
  let (kv, s, root) ← (removeRoot s t.root r : Res _)
  let a ← newAugmentationL s root
  Logged.emit [.dropAug t.rootAug]
  if t.len = 0 then (.error .panic : Res Unit)
  return (kv, { root := root, rootAug := a, len := t.len - 1, store := s, st := st })

/-- `remove`, src/tree/mod.rs:498-504, with `remove_impl` (src/tree/tree_remove.rs:8-16): the key is
dropped, the value returned. -/
def Tree.removeL (o : Answers K) (t : Tree K V A) : Logged K A (Option V × Tree K V A) := do
  match ← (t.keyToRefU o : Res _) with
  | none => return (none, t)
  | some e =>
    let (kv, t) ← t.removeByRefL e
    Logged.emit [.dropKey kv.1]
    return (some kv.2, t)

end Aug

/-- The inner nodes of the store are dropped with the table that holds them
(`Vec<Option<Box<InnerNode>>>`, src/tree/node_stores/vec_backed.rs:4-9); leaves drop nothing. -/
def Store.dropEvents (s : Store K V A) : List (Event K A) :=
  s.inners.flatMap (fun n => match n with | some n => n.dropEvents | none => [])

/-- `Drop for BPlusTree`, src/tree/mod.rs:818-822, followed by the drop of the field
`root_augmentation`: the items through `IntoIter::drop`, then the store. -/
def Tree.dropL (t : Tree K V A) : Logged K A Unit := do
  let l ← t.drop
  Logged.emit (l.map (fun e => .dropKey e.1) ++ t.store.dropEvents ++ [.dropAug t.rootAug])

/-- The events of a call. `clear` makes a new tree and drops the old one (src/tree/mod.rs:663-666);
the calls not listed make or drop no key or augmentation of the map. -/
def Tree.ucallL [Augmentation K V A] (t : Tree K V A) (o : Answers K) :
    UCall K V → Logged K A (Answer K V × Tree K V A)
  | .insert k v => do let (r, t) ← t.insertL o k v; return (.value r, t)
  | .remove => do let (r, t) ← t.removeL o; return (.value r, t)
  | .clear => do
    Logged.emit [.makeAug (Augmentation.dflt K V)]
    t.dropL
    (t.ucall o .clear : Res _)
  | c => (t.ucall o c : Res _)

end Bpt
