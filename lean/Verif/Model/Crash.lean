import Verif.LawlessHistory

/-!
# Panics in user code

The functions of the crate call user code: comparisons of keys, `K::clone`, `from_leaf` and
`from_inner`. A panic there unwinds out of the call and leaves the map as it is at that moment. Here
the calls are written again so that they also list the memory in which each piece of user code runs:
the possible crash points. Local variables are gone after unwinding (a popped item is dropped, a leaf
that is not yet stored is freed without dropping its items), so the memory is all that remains.

All comparisons of one search, or of one descent, run in the same memory and are listed once.
-/

namespace Bpt
variable {K V A : Type}

/-- User code called by the crate. -/
inductive Callback where
  /-- `Ord::cmp`, `PartialOrd::lt`, `PartialOrd::gt`, `PartialEq::eq`, `Borrow::borrow` on keys -/
  | compare
  /-- `K::clone` -/
  | cloneKey
  /-- `Augmentation::from_leaf`, with the number of keys (and of values) it is given -/
  | fromLeaf (entries : Nat)
  /-- `Augmentation::from_inner`, with the numbers of keys and of augmentations it is given -/
  | fromInner (keys augs : Nat)
  /-- `A::clone` (only in `bulk_load` and `clone`) -/
  | cloneAug
  /-- the destructor of a key (listed only in `Model/DropInsert.lean` and `Model/DropRemove.lean`) -/
  | dropKey
  /-- the destructor of an augmentation (listed only in `Model/DropInsert.lean` and `Model/DropRemove.lean`) -/
  | dropAug
  /-- user code that reads the nodes of a map: `locate_in_inner` and `locate_in_leaf`, `initial_value`,
  `fold_inner` and `fold_leaf`, and the methods of a visitor, with the number of keys and the number of
  augmentations or values it is given (listed only in `Model/SearchCrash.lean`) -/
  | query (keys others : Nat)
deriving DecidableEq

/-- Is this a call of `from_leaf`? -/
def Callback.isFromLeaf : Callback → Bool
  | .fromLeaf _ => true
  | _ => false

/-- Is this a call of `from_inner`? -/
def Callback.isFromInner : Callback → Bool
  | .fromInner _ _ => true
  | _ => false

/-- `from_leaf` called on a leaf (src/tree/mod.rs:304-307 and the functions of tree_remove.rs): it is
given the keys and values of the leaf. -/
def Callback.ofLeaf {K V : Type} (l : Leaf K V) : Callback := .fromLeaf l.keys.length

/-- `from_inner` called on an inner node (src/tree/mod.rs:300-303 and the functions of
tree_remove.rs): it is given the keys and augmentations of the node. -/
def Callback.ofInner {K A : Type} (n : Inner K A) : Callback :=
  .fromInner n.keys.length n.augs.length

/-- A program together with the list of its calls of user code and the memory each of them sees. -/
structure Traced (σ α : Type) where
  trace : List (Callback × σ)
  result : Res α

namespace Traced
variable {σ τ α β : Type}

instance : Monad (Traced σ) where
  pure a := ⟨[], .ok a⟩
  bind x f := match x.result with
    | .ok a => ⟨x.trace ++ (f a).trace, (f a).result⟩
    | .error e => ⟨x.trace, .error e⟩

/-- Code that calls no user code. -/
instance : MonadLift Res (Traced σ) where
  monadLift x := ⟨[], x⟩

/-- User code is called in memory `m`. -/
def call (c : Callback) (m : σ) : Traced σ Unit := ⟨[(c, m)], .ok ()⟩

/-- The same program with a larger memory around it. -/
def mapMem (f : σ → τ) (x : Traced σ α) : Traced τ α :=
  ⟨x.trace.map (fun e => (e.1, f e.2)), x.result⟩

end Traced

section Aug
variable [Augmentation K V A]

/-- `new_augmentation_for_id`, src/tree/mod.rs:298-309, called in memory `m`. -/
def newAugmentationT {σ : Type} (m : σ) (s : Store K V A) : NodeId → Traced σ A
  | .inner i => do
    let n ← s.getInner i
    Traced.call (.ofInner n) m
    return innerAug V n
  | .leaf i => do
    let l ← s.getLeaf i
    Traced.call (.ofLeaf l) m
    return leafAug l

omit [Augmentation K V A] in
/-- `insert_leaf`, src/tree/mod.rs:311-341. When `r_leaf.data_at(0).0.clone()` (line 322) runs, the
left leaf already names the reserved slot of the right leaf, and that slot is still empty. -/
def insertLeafT (o : Answers K) (s : Store K V A) (id : Nat) (k : K) (v : V) :
    Traced (Store K V A) (Store K V A × InsertResult K V) := do
  let leaf ← s.getLeaf id
  Traced.call .compare s
  let slot ← leaf.locateSlotU o
  match ← (leaf.upsertAt slot k v : Res _) with
  | (leaf', .inserted) => return ((s.setLeaf id leaf').cacheLeaf id, .inserted)
  | (leaf', .updated v0) => return (s.setLeaf id leaf', .updated v0)
  | (_, .isFull idx k v) =>
    let (s, rightId) := s.reserveLeaf
    let lLeaf ← s.getLeaf id
    let (lLeaf, rLeaf) ← (lLeaf.splitNewLeaf idx (k, v) rightId id : Res _)
    let s := s.setLeaf id lLeaf
    let kv ← rLeaf.dataAt 0
    Traced.call .cloneKey s
    let s ← (match rLeaf.next with
      | some next => do
        let nl ← s.getLeaf next
        return s.setLeaf next (nl.setPrev (some rightId))
      | none => return s : Res (Store K V A))
    let s ← s.assignLeaf rightId rLeaf
    let updatedId := if splitOrigin ≤ idx then rightId else id
    return (s.cacheLeaf updatedId, .split kv.1 (.leaf rightId))

/-- The ascend loop of `insert_inner`, src/tree/mod.rs:246-295. -/
def insertAscendT (s : Store K V A) :
    List StackEntry → InsertResult K V → Traced (Store K V A) (Store K V A × InsertResult K V)
  | [], r => return (s, r)
  | (id, childIdx, childId) :: stack, .split key rightChild => do
    let rightAug ← newAugmentationT s s rightChild
    let childAug ← newAugmentationT s s childId
    let node ← s.getInner id
    let node ← node.setAugmentation childIdx childAug
    if !node.isFull then
      let node ← node.insertAt childIdx key rightChild rightAug
      insertAscendT (s.setInner id node) stack .inserted
    else
      let (promptK, node, newNode) ← (node.split childIdx key rightChild rightAug : Res _)
      let (s, newId) := (s.setInner id node).addInner newNode
      insertAscendT s stack (.split promptK (.inner newId))
  | (id, childIdx, childId) :: stack, .inserted => do
    let childAug ← newAugmentationT s s childId
    let node ← s.getInner id
    let node ← node.setAugmentation childIdx childAug
    insertAscendT (s.setInner id node) stack .inserted
  | (id, childIdx, childId) :: stack, .updated v => do
    let childAug ← newAugmentationT s s childId
    let node ← s.getInner id
    let node ← node.setAugmentation childIdx childAug
    insertAscendT (s.setInner id node) stack (.updated v)

/-- `descend_insert`, src/tree/mod.rs:213-223, with `insert_inner` (225-296). -/
def descendInsertT (o : Answers K) (s : Store K V A) (nodeId : NodeId) (k : K) (v : V) :
    Traced (Store K V A) (Store K V A × InsertResult K V) :=
  match nodeId with
  | .inner id => do
    Traced.call .compare s
    let (stack, leafId) ← (descendLeaf s (stackStepU o) [] (.inner id) : Res _)
    let (s, r) ← insertLeafT o s leafId k v
    insertAscendT s stack r
  | .leaf id => insertLeafT o s id k v

/-- The end of `BPlusTree::insert`, src/tree/mod.rs:166-197: root, length and root augmentation are
written after the last call of user code. -/
def Tree.finishInsertT (t : Tree K V A) (s : Store K V A) (r : InsertResult K V) :
    Traced (Store K V A) (Option V × Tree K V A) :=
  match r with
  | .inserted => do
    let a ← newAugmentationT s s t.root
    return (none, { t with store := s, rootAug := a, len := t.len + 1 })
  | .updated prev => do
    let a ← newAugmentationT s s t.root
    return (some prev, { t with store := s, rootAug := a })
  | .split k newChild => do
    let prevRootAug ← newAugmentationT s s t.root
    let newAug ← newAugmentationT s s newChild
    let newRoot ← Inner.newFromIter [k] [t.root, newChild] [prevRootAug, newAug]
    Traced.call (.ofInner newRoot) s
    let newRootAug := innerAug V newRoot
    let (s, newRootId) := s.addInner newRoot
    return (none, { t with
      store := s, root := .inner newRootId, rootAug := newRootAug, len := t.len + 1 })

/-- `BPlusTree::insert`, src/tree/mod.rs:156-197. -/
def Tree.insertT (o : Answers K) (t : Tree K V A) (k : K) (v : V) :
    Traced (Tree K V A) (Option V × Tree K V A) :=
  Traced.mapMem (fun s => { t with store := s }) (do
    let (s, r) ← descendInsertT o t.store t.root k v
    t.finishInsertT s r)

/-- `try_rotate_right_for_inner_node`, src/tree/tree_remove.rs:235-267. The parent is written in
place: `pid` is its id. -/
def tryRotateRightInnerT (pid : Nat) (s : Store K V A) (node : Inner K A) (slot : Nat) :
    Traced (Store K V A) (Option (Store K V A × Inner K A)) := do
  let rightId ← ((do (← node.childId (slot + 1)).innerIdUnchecked) : Res Nat)
  let leftId ← ((do (← node.childId slot).innerIdUnchecked) : Res Nat)
  let prev ← s.getInner leftId
  if prev.ableToLend then
    let ((k, c, a), prev) ← (prev.pop : Res _)
    let s := s.setInner leftId prev
    Traced.call (.ofInner prev) (s.setInner pid node)
    let leftAug := innerAug V prev
    let (slotKey, node) ← (node.setKey slot k : Res _)
    let right ← s.getInner rightId
    let right ← right.pushFront slotKey c a
    let s := s.setInner rightId right
    Traced.call (.ofInner right) (s.setInner pid node)
    let rightAug := innerAug V right
    let node ← node.setAugmentation slot leftAug
    let node ← node.setAugmentation (slot + 1) rightAug
    return some (s, node)
  else
    return none

/-- `try_rotate_left_for_inner_node`, src/tree/tree_remove.rs:269-302. -/
def tryRotateLeftInnerT (pid : Nat) (s : Store K V A) (node : Inner K A) (slot : Nat) :
    Traced (Store K V A) (Option (Store K V A × Inner K A)) := do
  let rightId ← ((do (← node.childId (slot + 1)).innerIdUnchecked) : Res Nat)
  let leftId ← ((do (← node.childId slot).innerIdUnchecked) : Res Nat)
  let right ← s.getInner rightId
  if right.ableToLend then
    let ((k, c, a), right) ← (right.popFront : Res _)
    let s := s.setInner rightId right
    Traced.call (.ofInner right) (s.setInner pid node)
    let rightAug := innerAug V right
    let (slotKey, node) ← (node.setKey slot k : Res _)
    let left ← s.getInner leftId
    let left ← left.push slotKey c a
    let s := s.setInner leftId left
    Traced.call (.ofInner left) (s.setInner pid node)
    let leftAug := innerAug V left
    let node ← node.setAugmentation slot leftAug
    let node ← node.setAugmentation (slot + 1) rightAug
    return some (s, node)
  else
    return none

/-- `merge_inner_node`, src/tree/tree_remove.rs:304-330. -/
def mergeInnerNodeT (pid : Nat) (s : Store K V A) (node : Inner K A) (slot : Nat) :
    Traced (Store K V A) (Bool × Store K V A × Inner K A) := do
  if ¬ slot < node.len then (.error .panic : Res Unit)
  let leftId ← ((do (← node.childId slot).innerIdUnchecked) : Res Nat)
  let rightId ← ((do (← node.childId (slot + 1)).innerIdUnchecked) : Res Nat)
  let (result, slotKey, node) ← (node.removeSlotWithRight slot : Res _)
  let (right, s) ← (s.takeInner rightId : Res _)
  let left ← s.getInner leftId
  let left ← left.mergeNext slotKey right
  let s := s.setInner leftId left
  Traced.call (.ofInner left) (s.setInner pid node)
  let node ← node.setAugmentation slot (innerAug V left)
  return (result, s, node)

/-- `handle_inner_under_size`, src/tree/tree_remove.rs:97-129. The counters of `Statistic` are part of
the memory: those of a merge are incremented before it, those of a rotation after it. -/
def handleInnerUnderSizeT (pid : Nat) (s : Store K V A) (st : Statistic) (node : Inner K A)
    (childIdx : Nat) (deleted : K × V) :
    Traced (Store K V A × Statistic) (DeleteResult K V × Store K V A × Statistic × Inner K A) := do
  let rotR ← (if 0 < childIdx
    then Traced.mapMem (·, st) (tryRotateRightInnerT pid s node (childIdx - 1))
    else return none : Traced (Store K V A × Statistic) (Option (Store K V A × Inner K A)))
  match rotR with
  | some (s, node) =>
    return (.done deleted, s, { st with rotateRightInner := st.rotateRightInner + 1 }, node)
  | none =>
  let rotL ← (if childIdx < node.len
    then Traced.mapMem (·, st) (tryRotateLeftInnerT pid s node childIdx)
    else return none : Traced (Store K V A × Statistic) (Option (Store K V A × Inner K A)))
  match rotL with
  | some (s, node) =>
    return (.done deleted, s, { st with rotateLeftInner := st.rotateLeftInner + 1 }, node)
  | none =>
  let (mergeSlot, st) := if 0 < childIdx
    then (childIdx - 1, { st with mergeWithLeftInner := st.mergeWithLeftInner + 1 })
    else (childIdx, { st with mergeWithRightInner := st.mergeWithRightInner + 1 })
  let (ok, s, node) ← Traced.mapMem (·, st) (mergeInnerNodeT pid s node mergeSlot)
  if ok then
    return (.done deleted, s, st, node)
  else
    return (.innerUnderSize deleted, s, st, node)

/-- `rotate_right_for_leaf`, src/tree/tree_remove.rs:332-361. -/
def rotateRightForLeafT (pid : Nat) (s : Store K V A) (node : Inner K A) (slot deleteIdx : Nat) :
    Traced (Store K V A) ((K × V) × Store K V A × Inner K A) := do
  let leftId ← ((do (← node.childId slot).leafIdUnchecked) : Res Nat)
  let rightId ← ((do (← node.childId (slot + 1)).leafIdUnchecked) : Res Nat)
  let left ← s.getLeaf leftId
  if !left.ableToLend then (.error .panic : Res Unit)
  let (kv, left) ← (left.pop : Res _)
  let s := s.setLeaf leftId left
  Traced.call (.ofLeaf left) (s.setInner pid node)
  let node ← node.setAugmentation slot (leafAug left)
  Traced.call .cloneKey (s.setInner pid node)
  let newSlotKey := kv.1
  let right ← s.getLeaf rightId
  let (deleted, right) ← (right.deleteWithPushFront deleteIdx kv : Res _)
  let s := s.setLeaf rightId right
  Traced.call (.ofLeaf right) (s.setInner pid node)
  let node ← node.setAugmentation (slot + 1) (leafAug right)
  let s := s.cacheLeaf rightId
  let (_, node) ← (node.setKey slot newSlotKey : Res _)
  return (deleted, s, node)

/-- `rotate_left_for_leaf`, src/tree/tree_remove.rs:363-391. -/
def rotateLeftForLeafT (pid : Nat) (s : Store K V A) (parent : Inner K A) (slot deleteIdx : Nat) :
    Traced (Store K V A) ((K × V) × Store K V A × Inner K A) := do
  let leftId ← ((do (← parent.childId slot).leafIdUnchecked) : Res Nat)
  let rightId ← ((do (← parent.childId (slot + 1)).leafIdUnchecked) : Res Nat)
  let right ← s.getLeaf rightId
  if !right.ableToLend then (.error .panic : Res Unit)
  let (kv, right) ← (right.popFront : Res _)
  let s := s.setLeaf rightId right
  Traced.call (.ofLeaf right) (s.setInner pid parent)
  let parent ← parent.setAugmentation (slot + 1) (leafAug right)
  let first ← right.dataAt 0
  Traced.call .cloneKey (s.setInner pid parent)
  let newSlotKey := first.1
  let left ← s.getLeaf leftId
  let (deleted, left) ← (left.deleteWithPush deleteIdx kv : Res _)
  let s := s.setLeaf leftId left
  Traced.call (.ofLeaf left) (s.setInner pid parent)
  let parent ← parent.setAugmentation slot (leafAug left)
  let (_, parent) ← (parent.setKey slot newSlotKey : Res _)
  return (deleted, s.cacheLeaf leftId, parent)

/-- `merge_leaf_node_left`, src/tree/tree_remove.rs:393-418. When `from_leaf` runs (line 405), the
right leaf has left the store and the parent still names it. -/
def mergeLeafNodeLeftT (pid : Nat) (s : Store K V A) (parent : Inner K A) (slot deleteIdx : Nat) :
    Traced (Store K V A) (DeleteResult K V × Store K V A × Inner K A) := do
  let leftId ← ((do (← parent.childId slot).leafIdUnchecked) : Res Nat)
  let rightId ← ((do (← parent.childId (slot + 1)).leafIdUnchecked) : Res Nat)
  let (right, s) ← (s.takeLeaf rightId : Res _)
  let left ← s.getLeaf leftId
  let (kv, left) ← (left.mergeRightDeleteFirst deleteIdx right : Res _)
  let s := s.setLeaf leftId left
  Traced.call (.ofLeaf left) (s.setInner pid parent)
  let parent ← parent.setAugmentation slot (leafAug left)
  let s ← relinkNext s left leftId
  let (ok, _, parent) ← (parent.removeSlotWithRight slot : Res _)
  let s := s.cacheLeaf leftId
  return (if ok then .done kv else .innerUnderSize kv, s, parent)

/-- `merge_leaf_node_with_right`, src/tree/tree_remove.rs:420-447; `from_leaf` is called on line
434. -/
def mergeLeafNodeWithRightT (pid : Nat) (s : Store K V A) (parent : Inner K A)
    (slot deleteIdx : Nat) :
    Traced (Store K V A) (DeleteResult K V × Store K V A × Inner K A) := do
  let leftId ← ((do (← parent.childId slot).leafIdUnchecked) : Res Nat)
  let rightId ← ((do (← parent.childId (slot + 1)).leafIdUnchecked) : Res Nat)
  let (right, s) ← (s.takeLeaf rightId : Res _)
  let left ← s.getLeaf leftId
  let (kv, left) ← (left.deleteAt deleteIdx : Res _)
  let left ← left.mergeRight right
  let s := s.setLeaf leftId left
  Traced.call (.ofLeaf left) (s.setInner pid parent)
  let parent ← parent.setAugmentation slot (leafAug left)
  let s ← relinkNext s left leftId
  let (ok, _, parent) ← (parent.removeSlotWithRight slot : Res _)
  let s := s.cacheLeaf leftId
  return (if ok then .done kv else .innerUnderSize kv, s, parent)

/-- `handle_leaf_under_size`, src/tree/tree_remove.rs:131-233. -/
def handleLeafUnderSizeT (pid : Nat) (s : Store K V A) (st : Statistic) (node : Inner K A)
    (childIdx keyIdx : Nat) :
    Traced (Store K V A × Statistic) (DeleteResult K V × Store K V A × Statistic × Inner K A) := do
  let prevSibling ← (if 0 < childIdx then do
      let id ← (← node.childId (childIdx - 1)).leafIdUnchecked
      let l ← s.getLeaf id
      return some l
    else return none : Res (Option (Leaf K V)))
  let nextSibling ← (if childIdx < node.len then do
      let id ← (← node.childId (childIdx + 1)).leafIdUnchecked
      let l ← s.getLeaf id
      return some l
    else return none : Res (Option (Leaf K V)))
  match ← (chooseFix prevSibling nextSibling : Res _) with
  | .rotateRight =>
    let (deleted, s, node) ←
      Traced.mapMem (·, st) (rotateRightForLeafT pid s node (childIdx - 1) keyIdx)
    return (.done deleted, s, { st with rotateRightLeaf := st.rotateRightLeaf + 1 }, node)
  | .rotateLeft =>
    let (deleted, s, node) ← Traced.mapMem (·, st) (rotateLeftForLeafT pid s node childIdx keyIdx)
    return (.done deleted, s, { st with rotateLeftLeaf := st.rotateLeftLeaf + 1 }, node)
  | .mergeLeft =>
    let st := { st with mergeWithLeftLeaf := st.mergeWithLeftLeaf + 1 }
    let (r, s, node) ← Traced.mapMem (·, st) (mergeLeafNodeLeftT pid s node (childIdx - 1) keyIdx)
    return (r, s, st, node)
  | .mergeRight =>
    let st := { st with mergeWithRightLeaf := st.mergeWithRightLeaf + 1 }
    let (r, s, node) ← Traced.mapMem (·, st) (mergeLeafNodeWithRightT pid s node childIdx keyIdx)
    return (r, s, st, node)

/-- The fix-up loop of `remove_by_ref` over the visit stack, src/tree/tree_remove.rs:36-60. -/
def removeAscendT (s : Store K V A) (st : Statistic) :
    List StackEntry → DeleteResult K V →
      Traced (Store K V A × Statistic) (DeleteResult K V × Store K V A × Statistic)
  | [], r => return (r, s, st)
  | (parentId, childIdx, childId) :: stack, .done kv => do
    let childAug ← newAugmentationT (s, st) s childId
    let node ← s.getInner parentId
    let node ← node.setAugmentation childIdx childAug
    removeAscendT (s.setInner parentId node) st stack (.done kv)
  | (parentId, childIdx, _) :: stack, .innerUnderSize kv => do
    let parent ← s.getInner parentId
    let (r, s, st, parent) ← handleInnerUnderSizeT parentId s st parent childIdx kv
    removeAscendT (s.setInner parentId parent) st stack r
  | (parentId, childIdx, _) :: stack, .leafUnderSize idx => do
    let parent ← s.getInner parentId
    let (r, s, st, parent) ← handleLeafUnderSizeT parentId s st parent childIdx idx
    removeAscendT (s.setInner parentId parent) st stack r

/-- `remove_by_ref`, src/tree/tree_remove.rs:18-95. The root is written before the last call of user
code, the length after it. -/
def Tree.removeByRefT (t : Tree K V A) (e : EntryRef) :
    Traced (Tree K V A) ((K × V) × Tree K V A) := do
  let leaf ← t.store.getLeaf e.leafId
  let (leaf, dr) ← (leaf.tryDeleteAt e.offset : Res _)
  let s := t.store.setLeaf e.leafId leaf
  let r : DeleteResult K V := match dr with
    | .done kv => .done kv
    | .underSize idx => .leafUnderSize idx
  let (r, s, st) ← Traced.mapMem (fun m => { t with store := m.1, st := m.2 })
    (removeAscendT s t.st e.stack r)
  let (kv, s, root) ← (removeRoot s t.root r : Res _)
  let a ← newAugmentationT { t with store := s, st := st, root := root } s root
  if t.len = 0 then (.error .panic : Res Unit)
  return (kv, { root := root, rootAug := a, len := t.len - 1, store := s, st := st })

/-- `remove`, src/tree/mod.rs:498-504, with `remove_impl` (src/tree/tree_remove.rs:8-16) and
`key_to_ref` (src/tree/mod.rs:506-532). -/
def Tree.removeT (o : Answers K) (t : Tree K V A) : Traced (Tree K V A) (Option V × Tree K V A) := do
  Traced.call .compare t
  match ← (t.keyToRefU o : Res _) with
  | none => return (none, t)
  | some e =>
    let (kv, t) ← t.removeByRefT e
    return (some kv.2, t)

end Aug

/-- `BPlusTree::get`, src/tree/mod.rs:344-354. -/
def Tree.getT (o : Answers K) (t : Tree K V A) : Traced (Tree K V A) (Option V × Tree K V A) := do
  Traced.call .compare t
  match ← (t.store.tryCacheU o : Res _) with
  | some leafId =>
    let v ← findInLeafU o t.store leafId
    return (v, t)
  | none =>
    let leafId ← findDescendLeafU o t.store t.root
    let s := t.store.cacheLeaf leafId
    Traced.call .compare { t with store := s }
    let v ← findInLeafU o s leafId
    return (v, { t with store := s })

/-- `BPlusTree::get_mut`, src/tree/mod.rs:357-372, followed by applying `f` to the value. -/
def Tree.getMutT (o : Answers K) (t : Tree K V A) (f : V → V) :
    Traced (Tree K V A) (Option V × Tree K V A) := do
  Traced.call .compare t
  match ← (t.store.tryCacheU o : Res _) with
  | some leafId =>
    let (v, s) ← (updateInLeafU o t.store leafId f : Res _)
    return (v, { t with store := s })
  | none =>
    let leafId ← findDescendLeafU o t.store t.root
    let s := t.store.cacheLeaf leafId
    Traced.call .compare { t with store := s }
    let (v, s) ← (updateInLeafU o s leafId f : Res _)
    return (v, { t with store := s })

/-- A call on the tree with its calls of user code. The cursor functions borrow the map immutably and
store nothing, so all their calls of user code (comparisons, and `K::clone` for the new cursor) run in
the memory before the call. `clear` calls `A::default()` before it touches the map
(src/tree/mod.rs:663-666) and the destructors after it is replaced (`Model/DropPanic.lean`); the
remaining calls run no user code. -/
def Tree.ucallT [Augmentation K V A] (t : Tree K V A) (o : Answers K) :
    UCall K V → Traced (Tree K V A) (Answer K V × Tree K V A)
  | .insert k v => do let (r, t) ← t.insertT o k v; return (.value r, t)
  | .remove => do let (r, t) ← t.removeT o; return (.value r, t)
  | .get => do let (r, t) ← t.getT o; return (.value r, t)
  | .getMut f => do let (r, t) ← t.getMutT o f; return (.value r, t)
  | .cursorNext c => do
    Traced.call .compare t
    Traced.call .cloneKey t
    t.ucall o (.cursorNext c)
  | .cursorPrev c => do
    Traced.call .compare t
    Traced.call .cloneKey t
    t.ucall o (.cursorPrev c)
  | .cursorValue c => do Traced.call .compare t; t.ucall o (.cursorValue c)
  | .getCursor k => do Traced.call .compare t; t.ucall o (.getCursor k)
  | c => (t.ucall o c : Res _)

end Bpt
