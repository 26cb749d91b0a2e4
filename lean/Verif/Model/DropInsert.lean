import Verif.Model.Crash

/-!
# Destructors inside an insertion

An insertion destroys objects: the given key if a key equal to it is already there, and every
augmentation that is replaced by a new one. Here `insert` is written again so that it lists the memory
in which these destructors run. A destructor that panics unwinds out of the call and leaves the map as
it is at that moment.

* `std::mem::replace(area, MaybeUninit::new(a)).assume_init_drop()` and an assignment `x = a` store the
  new value also when the destructor of the old one panics.
* The items and augmentations in local variables at that moment are destroyed by the unwinding; they are
  not part of the map.
-/

namespace Bpt
variable {K V A : Type} [Augmentation K V A]

omit [Augmentation K V A] in
/-- `insert_leaf`, src/tree/mod.rs:311-341: `try_upsert` (src/tree/leaf_node.rs:213-220) replaces the
value of a key that is there, and then drops the given key `k`. Nothing else is destroyed. -/
def insertLeafD (o : Answers K) (s : Store K V A) (id : Nat) (k : K) (v : V) :
    Traced (Store K V A) (Store K V A × InsertResult K V) := do
  match ← (insertLeafU o s id k v : Res _) with
  | (s, .updated v0) =>
    Traced.call .dropKey s
    return (s, .updated v0)
  | (s, r) => return (s, r)

/-- The ascend loop of `insert_inner`, src/tree/mod.rs:246-295: `set_augmentation`
(src/tree/inner_node.rs:194-201) destroys the old augmentation after the new one is stored, and in the
case of a split before the new child is entered. -/
def insertAscendD (s : Store K V A) :
    List StackEntry → InsertResult K V → Traced (Store K V A) (Store K V A × InsertResult K V)
  | [], r => return (s, r)
  | (id, childIdx, childId) :: stack, .split key rightChild => do
    let rightAug ← (newAugmentationForId s rightChild : Res _)
    let childAug ← (newAugmentationForId s childId : Res _)
    let node ← s.getInner id
    let node ← node.setAugmentation childIdx childAug
    Traced.call .dropAug (s.setInner id node)
    if !node.isFull then
      let node ← node.insertAt childIdx key rightChild rightAug
      insertAscendD (s.setInner id node) stack .inserted
    else
      let (promptK, node, newNode) ← (node.split childIdx key rightChild rightAug : Res _)
      let (s, newId) := (s.setInner id node).addInner newNode
      insertAscendD s stack (.split promptK (.inner newId))
  | (id, childIdx, childId) :: stack, .inserted => do
    let childAug ← (newAugmentationForId s childId : Res _)
    let node ← s.getInner id
    let node ← node.setAugmentation childIdx childAug
    Traced.call .dropAug (s.setInner id node)
    insertAscendD (s.setInner id node) stack .inserted
  | (id, childIdx, childId) :: stack, .updated v => do
    let childAug ← (newAugmentationForId s childId : Res _)
    let node ← s.getInner id
    let node ← node.setAugmentation childIdx childAug
    Traced.call .dropAug (s.setInner id node)
    insertAscendD (s.setInner id node) stack (.updated v)

/-- `descend_insert`, src/tree/mod.rs:213-223, with `insert_inner` (225-296). -/
def descendInsertD (o : Answers K) (s : Store K V A) (nodeId : NodeId) (k : K) (v : V) :
    Traced (Store K V A) (Store K V A × InsertResult K V) :=
  match nodeId with
  | .inner id => do
    let (stack, leafId) ← (descendLeaf s (stackStepU o) [] (.inner id) : Res _)
    let (s, r) ← insertLeafD o s leafId k v
    insertAscendD s stack r
  | .leaf id => insertLeafD o s id k v

/-- The end of `BPlusTree::insert`, src/tree/mod.rs:156-197: the root is written, then the assignment of
the root augmentation destroys the old one (lines 161, 165, 184), then the length is written. -/
def Tree.finishInsertD (t : Tree K V A) (s : Store K V A) (r : InsertResult K V) :
    Traced (Tree K V A) (Option V × Tree K V A) :=
  match r with
  | .inserted => do
    let a ← (newAugmentationForId s t.root : Res _)
    Traced.call .dropAug { t with store := s, rootAug := a }
    return (none, { t with store := s, rootAug := a, len := t.len + 1 })
  | .updated prev => do
    let a ← (newAugmentationForId s t.root : Res _)
    Traced.call .dropAug { t with store := s, rootAug := a }
    return (some prev, { t with store := s, rootAug := a })
  | .split k newChild => do
    let prevRootAug ← (newAugmentationForId s t.root : Res _)
    let newAug ← (newAugmentationForId s newChild : Res _)
    let newRoot ← Inner.newFromIter [k] [t.root, newChild] [prevRootAug, newAug]
    let newRootAug := innerAug V newRoot
    let (s, newRootId) := s.addInner newRoot
    Traced.call .dropAug { t with store := s, root := .inner newRootId, rootAug := newRootAug }
    return (none, { t with
      store := s, root := .inner newRootId, rootAug := newRootAug, len := t.len + 1 })

/-- `BPlusTree::insert`, src/tree/mod.rs:156-197. -/
def Tree.insertD (o : Answers K) (t : Tree K V A) (k : K) (v : V) :
    Traced (Tree K V A) (Option V × Tree K V A) := do
  let (s, r) ← Traced.mapMem (fun s => ({ t with store := s } : Tree K V A))
    (descendInsertD o t.store t.root k v)
  t.finishInsertD s r

end Bpt
