import Verif.Model.Store

/-!
# The tree: construction, insertion, lookup (src/tree/mod.rs)
-/

namespace Bpt

/-- `Statistic`, src/tree/mod.rs:835-847. -/
structure Statistic where
  rotateRightInner : Nat := 0
  rotateLeftInner : Nat := 0
  mergeWithLeftInner : Nat := 0
  mergeWithRightInner : Nat := 0
  rotateRightLeaf : Nat := 0
  rotateLeftLeaf : Nat := 0
  mergeWithLeftLeaf : Nat := 0
  mergeWithRightLeaf : Nat := 0
deriving DecidableEq, Repr

/-- `BPlusTree`, src/tree/mod.rs:87-93. -/
structure Tree (K V A : Type) where
  root : NodeId
  rootAug : A
  len : Nat
  store : Store K V A
  st : Statistic
deriving DecidableEq

/-- One entry of `VisitStack`, src/tree/entry_ref.rs:6-13: (inner id, child offset, child id). -/
abbrev StackEntry := Nat × Nat × NodeId

/-- `VisitStack::push`, src/tree/entry_ref.rs:56-67. The stack is a list, newest entry first;
`assert!(len < MAX_DEPTH)`. -/
def pushStack (st : List StackEntry) (e : StackEntry) : Res (List StackEntry) :=
  if st.length < maxDepth then .ok (e :: st) else .error .panic

variable {K V A : Type}

/-- The common shape of all root-to-leaf loops of the crate: at an inner node run `step` on the
current state, the node's id and the node; it either stops with a result or names the child to
continue with. `fuel` bounds the number of inner nodes visited.
Instances: `descend_visit_inner` (mod.rs:609-623), the loops of `insert_inner` (mod.rs:232-244),
`first`/`last` (mod.rs:380-393, 402-415), `find_descend(_mut)` (mod.rs:418-456), `key_to_ref`
(mod.rs:513-531), `get_ref_by_augmentation` (mod.rs:676-702), `rank_by_augmentation`
(mod.rs:733-757), `descend_visit` (visit.rs:30-57). -/
def descend {σ β : Type} (s : Store K V A)
    (step : σ → Nat → Inner K A → Res (β ⊕ (σ × NodeId))) :
    Nat → σ → NodeId → Res (β ⊕ (σ × Nat))
  | _, st, .leaf i => .ok (.inr (st, i))
  | 0, _, .inner _ => .error .fuel
  | fuel + 1, st, .inner i => do
    let node ← s.getInner i
    match ← step st i node with
    | .inl b => return .inl b
    | .inr (st', c) => descend s step fuel st' c

/-- Fuel for `descend`: more than the number of inner nodes. -/
def Store.fuel (s : Store K V A) : Nat := s.inners.length + 1

/-- `descend` for loops that never stop at an inner node. -/
def descendLeaf {σ : Type} (s : Store K V A)
    (step : σ → Nat → Inner K A → Res (σ × NodeId)) (st : σ) (root : NodeId) : Res (σ × Nat) := do
  match ← descend (β := Empty) s
    (fun st i n => do let r ← step st i n; return .inr r) s.fuel st root with
  | .inl e => nomatch e
  | .inr r => return r

section Aug
variable [Augmentation K V A]

/-- `S::Augmentation::from_leaf(leaf.keys(), leaf.values())`. -/
def leafAug (l : Leaf K V) : A := Augmentation.fromLeaf l.keys l.values

variable (V) in
/-- `S::Augmentation::from_inner(inner.keys(), inner.augmentations())`. -/
def innerAug (n : Inner K A) : A := Augmentation.fromInner V n.keys n.augs

/-- `new_augmentation_for_id`, src/tree/mod.rs:298-309. -/
def newAugmentationForId (s : Store K V A) : NodeId → Res A
  | .inner i => do
    let n ← s.getInner i
    return innerAug V n
  | .leaf i => do
    let l ← s.getLeaf i
    return leafAug l

/-- `BPlusTree::new` on a default store, src/tree/mod.rs:100-110. -/
def Tree.new : Tree K V A :=
  let (s, id) := (Store.empty : Store K V A).newEmptyLeaf
  { root := .leaf id, rootAug := Augmentation.dflt K V, len := 0, store := s, st := {} }

/-- `DescendInsertResult`, src/tree/mod.rs:849-856. -/
inductive InsertResult (K V : Type) where
  | updated (v : V)
  | inserted
  | split (k : K) (right : NodeId)

variable [LinearOrder K]

/-- `insert_leaf`, src/tree/mod.rs:311-341. -/
def insertLeaf (s : Store K V A) (id : Nat) (k : K) (v : V) :
    Res (Store K V A × InsertResult K V) := do
  let leaf ← s.getLeaf id
  match ← leaf.tryUpsert k v with
  | (leaf', .inserted) => return ((s.setLeaf id leaf').cacheLeaf id, .inserted)
  | (leaf', .updated v0) => return (s.setLeaf id leaf', .updated v0)
  | (_, .isFull idx k v) =>
    let (s, rightId) := s.reserveLeaf
    let lLeaf ← s.getLeaf id
    let (lLeaf, rLeaf) ← lLeaf.splitNewLeaf idx (k, v) rightId id
    let s := s.setLeaf id lLeaf
    let kv ← rLeaf.dataAt 0
    -- fix r_leaf's next's prev
    let s ← (match rLeaf.next with
      | some next => do
        let nl ← s.getLeaf next
        return s.setLeaf next (nl.setPrev (some rightId))
      | none => return s : Res (Store K V A))
    let s ← s.assignLeaf rightId rLeaf
    let updatedId := if splitOrigin ≤ idx then rightId else id
    return (s.cacheLeaf updatedId, .split kv.1 (.leaf rightId))

/-- The descent of `insert_inner`, src/tree/mod.rs:231-244. -/
def insertDescendStep (k : K) (st : List StackEntry) (i : Nat) (n : Inner K A) :
    Res (List StackEntry × NodeId) := do
  let (idx, c) ← n.locateChild k
  let st ← pushStack st (i, idx, c)
  return (st, c)

/-- The ascend loop of `insert_inner`, src/tree/mod.rs:246-295. -/
def insertAscend (s : Store K V A) :
    List StackEntry → InsertResult K V → Res (Store K V A × InsertResult K V)
  | [], r => return (s, r)
  | (id, childIdx, childId) :: stack, .split key rightChild => do
    let rightAug ← newAugmentationForId s rightChild
    let childAug ← newAugmentationForId s childId
    let node ← s.getInner id
    let node ← node.setAugmentation childIdx childAug
    if !node.isFull then
      let node ← node.insertAt childIdx key rightChild rightAug
      insertAscend (s.setInner id node) stack .inserted
    else
      let (promptK, node, newNode) ← node.split childIdx key rightChild rightAug
      let (s, newId) := (s.setInner id node).addInner newNode
      insertAscend s stack (.split promptK (.inner newId))
  | (id, childIdx, childId) :: stack, .inserted => do
    let childAug ← newAugmentationForId s childId
    let node ← s.getInner id
    let node ← node.setAugmentation childIdx childAug
    insertAscend (s.setInner id node) stack .inserted
  | (id, childIdx, childId) :: stack, .updated v => do
    let childAug ← newAugmentationForId s childId
    let node ← s.getInner id
    let node ← node.setAugmentation childIdx childAug
    insertAscend (s.setInner id node) stack (.updated v)

/-- `insert_inner`, src/tree/mod.rs:225-296. -/
def insertInner (s : Store K V A) (id : Nat) (k : K) (v : V) :
    Res (Store K V A × InsertResult K V) := do
  let (stack, leafId) ← descendLeaf s (insertDescendStep k) [] (.inner id)
  let (s, r) ← insertLeaf s leafId k v
  insertAscend s stack r

/-- `descend_insert`, src/tree/mod.rs:213-223. -/
def descendInsert (s : Store K V A) (nodeId : NodeId) (k : K) (v : V) :
    Res (Store K V A × InsertResult K V) :=
  match nodeId with
  | .inner id => insertInner s id k v
  | .leaf id => insertLeaf s id k v

/-- `BPlusTree::insert`, src/tree/mod.rs:156-197 (without the `#[cfg(test)]` validation). -/
def Tree.insert (t : Tree K V A) (k : K) (v : V) : Res (Option V × Tree K V A) := do
  let (s, r) ← descendInsert t.store t.root k v
  match r with
  | .inserted =>
    let a ← newAugmentationForId s t.root
    return (none, { t with store := s, rootAug := a, len := t.len + 1 })
  | .updated prev =>
    let a ← newAugmentationForId s t.root
    return (some prev, { t with store := s, rootAug := a })
  | .split k newChild =>
    let prevRootAug ← newAugmentationForId s t.root
    let newAug ← newAugmentationForId s newChild
    let newRoot ← Inner.newFromIter [k] [t.root, newChild] [prevRootAug, newAug]
    let newRootAug := innerAug V newRoot
    let (s, newRootId) := s.addInner newRoot
    return (none, { t with
      store := s, root := .inner newRootId, rootAug := newRootAug, len := t.len + 1 })

end Aug

section Read
variable [LinearOrder K]

/-- One step of the descents by key: `let (_, child_id) = inner_node.locate_child(k)`
(mod.rs:425-427, 450-452, 592, 643). -/
def locateStep (k : K) (_ : Unit) (_ : Nat) (n : Inner K A) : Res (Unit × NodeId) := do
  let (_, c) ← n.locateChild k
  return ((), c)

/-- `find_in_leaf`, src/tree/mod.rs:435-442. -/
def findInLeaf (s : Store K V A) (leafId : Nat) (k : K) : Res (Option V) := do
  let l ← s.getLeaf leafId
  let (_, v) ← l.locateSlotWithValue k
  return v

/-- `find_descend` up to the cache write, src/tree/mod.rs:418-433: the leaf found. -/
def findDescendLeaf (s : Store K V A) (root : NodeId) (k : K) : Res Nat := do
  let (_, leafId) ← descendLeaf s (locateStep k) () root
  return leafId

/-- `BPlusTree::get`, src/tree/mod.rs:344-354, with `find_descend` (418-433) and
`find_in_leaf_and_cache_it` (483-495): a miss stores the leaf found in the cache. -/
def Tree.get (t : Tree K V A) (k : K) : Res (Option V × Tree K V A) := do
  match ← t.store.tryCache k with
  | some leafId =>
    let v ← findInLeaf t.store leafId k
    return (v, t)
  | none =>
    let leafId ← findDescendLeaf t.store t.root k
    let s := t.store.cacheLeaf leafId
    let v ← findInLeaf s leafId k
    return (v, { t with store := s })

/-- `locate_slot_mut` (src/tree/leaf_node.rs:343-364) on the leaf, then the caller's write through
the returned `&mut V`, modelled as applying `f` to the value. Returns the value read through the
reference before the write. -/
def updateInLeaf (s : Store K V A) (leafId : Nat) (k : K) (f : V → V) :
    Res (Option V × Store K V A) := do
  let l ← s.getLeaf leafId
  match l.locateSlot k with
  | .found idx =>
    let kv ← l.dataAt idx
    return (some kv.2, s.setLeaf leafId { l with data := l.data.set idx (kv.1, f kv.2) })
  | .vacant _ => return (none, s)

/-- `BPlusTree::get_mut`, src/tree/mod.rs:357-372 (with 444-479), followed by the caller updating
the value with `f`. Returns the value seen before the update. -/
def Tree.getMut (t : Tree K V A) (k : K) (f : V → V) : Res (Option V × Tree K V A) := do
  match ← t.store.tryCache k with
  | some leafId =>
    let (v, s) ← updateInLeaf t.store leafId k f
    return (v, { t with store := s })
  | none =>
    let leafId ← findDescendLeaf t.store t.root k
    let s := t.store.cacheLeaf leafId
    let (v, s) ← updateInLeaf s leafId k f
    return (v, { t with store := s })

/-- `locate_leaf`, src/tree/mod.rs:583-607. -/
def Tree.locateLeaf (t : Tree K V A) (k : K) : Res Nat := do
  match ← t.store.tryCache k with
  | some leafId => return leafId
  | none => findDescendLeaf t.store t.root k

end Read

/-- `child_id(0)` step of `first` and `first_leaf`, src/tree/mod.rs:385, 541. -/
def firstStep (_ : Unit) (_ : Nat) (n : Inner K A) : Res (Unit × NodeId) := do
  let c ← n.childId 0
  return ((), c)

/-- `child_id(len)` step of `last` and `last_leaf`, src/tree/mod.rs:407, 564. -/
def lastStep (_ : Unit) (_ : Nat) (n : Inner K A) : Res (Unit × NodeId) := do
  let c ← n.childId n.len
  return ((), c)

/-- `first_leaf`, src/tree/mod.rs:535-555. Always `Some` in the code, so the option is dropped. -/
def Tree.firstLeaf (t : Tree K V A) : Res Nat := do
  let (_, id) ← descendLeaf t.store firstStep () t.root
  return id

/-- `last_leaf`, src/tree/mod.rs:558-578. Always `Some` in the code, so the option is dropped. -/
def Tree.lastLeaf (t : Tree K V A) : Res Nat := do
  let (_, id) ← descendLeaf t.store lastStep () t.root
  return id

/-- `is_empty`, src/tree/mod.rs:146-148. -/
def Tree.isEmpty (t : Tree K V A) : Bool := t.len == 0

/-- `first`, src/tree/mod.rs:375-394. -/
def Tree.first (t : Tree K V A) : Res (Option (K × V)) :=
  if t.isEmpty then return none else do
    let id ← t.firstLeaf
    let l ← t.store.getLeaf id
    let kv ← l.dataAt 0
    return some kv

/-- `last`, src/tree/mod.rs:397-416. -/
def Tree.last (t : Tree K V A) : Res (Option (K × V)) :=
  if t.isEmpty then return none else do
    let id ← t.lastLeaf
    let l ← t.store.getLeaf id
    if l.len = 0 then .error .panic
    let kv ← l.dataAt (l.len - 1)
    return some kv

/-- `clear`, src/tree/mod.rs:663-666: replace by a new tree on a default store (the old tree is
dropped; what dropping destroys is `Tree.drop` in Model/Iter.lean). -/
def Tree.clear [Augmentation K V A] (_ : Tree K V A) : Tree K V A := Tree.new

end Bpt
