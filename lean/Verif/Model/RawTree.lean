import Verif.Model.Slots
import Verif.Model.Remove

/-!
# The tree on raw node arrays: store, insertion, lookup

The same functions as in `Model/Store.lean` and `Model/Tree.lean`, but the nodes are the fixed arrays
of `MaybeUninit` slots of `Model/Slots.lean`, as in the code. `Verif/Props/Raw.lean` proves that every
run on these arrays agrees with the run on lists.

The box of a merged-away node is freed without running its destructor: `LeafNode` has none, and the
one of `InnerNode` is treated apart (C36).
-/

namespace Bpt
namespace Raw

/-- `NodeStoreVec`, src/tree/node_stores/vec_backed.rs:4-9. -/
structure Store (K V A : Type) where
  inners : List (Option (InnerS K A))
  leaves : List (Option (LeafS K V))
  cached : Option Nat

namespace Store
variable {K V A : Type}

/-- `NodeStoreVec::default`, vec_backed.rs:23-31. -/
def empty : Store K V A := ⟨[], [], none⟩

/-- `new_empty_leaf`, vec_backed.rs:115-120. -/
def newEmptyLeaf (s : Store K V A) : Store K V A × Nat :=
  ({ s with leaves := s.leaves ++ [some LeafS.new] }, s.leaves.length)

/-- `add_inner`, vec_backed.rs:122-126. -/
def addInner (s : Store K V A) (n : InnerS K A) : Store K V A × Nat :=
  ({ s with inners := s.inners ++ [some n] }, s.inners.length)

/-- `get_inner`, `get_mut_inner`, `get_mut_inner_ptr`, vec_backed.rs:129-139, 147-157, 211-222. -/
def getInner (s : Store K V A) (id : Nat) : Res (InnerS K A) :=
  match s.inners[id]? with
  | some (some n) => .ok n
  | _ => .error .ub

/-- Writing through `get_mut_inner(id)`. -/
def setInner (s : Store K V A) (id : Nat) (n : InnerS K A) : Store K V A :=
  { s with inners := s.inners.set id (some n) }

/-- `take_inner`, vec_backed.rs:159-161. -/
def takeInner (s : Store K V A) (id : Nat) : Res (InnerS K A × Store K V A) :=
  match s.inners[id]? with
  | some (some n) => .ok (n, { s with inners := s.inners.set id none })
  | _ => .error .panic

/-- `reserve_leaf`, vec_backed.rs:167-171. -/
def reserveLeaf (s : Store K V A) : Store K V A × Nat :=
  ({ s with leaves := s.leaves ++ [none] }, s.leaves.length)

/-- `get_leaf`, `get_mut_leaf`, vec_backed.rs:174-184, 192-200. -/
def getLeaf (s : Store K V A) (id : Nat) : Res (LeafS K V) :=
  match s.leaves[id]? with
  | some (some l) => .ok l
  | _ => .error .ub

/-- `try_get_leaf`, vec_backed.rs:186-189. -/
def tryGetLeaf (s : Store K V A) (id : Nat) : Option (LeafS K V) :=
  match s.leaves[id]? with
  | some (some l) => some l
  | _ => none

/-- Writing through `get_mut_leaf(id)`. -/
def setLeaf (s : Store K V A) (id : Nat) (l : LeafS K V) : Store K V A :=
  { s with leaves := s.leaves.set id (some l) }

/-- `take_leaf`, vec_backed.rs:202-204. -/
def takeLeaf (s : Store K V A) (id : Nat) : Res (LeafS K V × Store K V A) :=
  match s.leaves[id]? with
  | some (some l) => .ok (l, { s with leaves := s.leaves.set id none })
  | _ => .error .panic

/-- `assign_leaf`, vec_backed.rs:206-208. -/
def assignLeaf (s : Store K V A) (id : Nat) (l : LeafS K V) : Res (Store K V A) :=
  if id < s.leaves.length then .ok (s.setLeaf id l) else .error .panic

/-- `cache_leaf`, vec_backed.rs:224-227. -/
def cacheLeaf (s : Store K V A) (id : Nat) : Store K V A := { s with cached := some id }

/-- `try_cache`, vec_backed.rs:229-246. -/
def tryCache [LinearOrder K] (s : Store K V A) (k : K) : Res (Option Nat) :=
  match s.cached with
  | none => return none
  | some id =>
    match s.tryGetLeaf id with
    | none => return none
    | some l => do
      let b ← l.inRange k
      return if b then some id else none

/-- Bound for the descents: more than the number of inner nodes. -/
def fuel (s : Store K V A) : Nat := s.inners.length + 1

end Store

/-- `BPlusTree`, src/tree/mod.rs:87-93. -/
structure Tree (K V A : Type) where
  root : NodeId
  rootAug : A
  len : Nat
  store : Store K V A
  st : Statistic

variable {K V A : Type}

/-- The shape of the root-to-leaf loops, see `Bpt.descend`. -/
def descend {σ β : Type} (s : Store K V A)
    (step : σ → Nat → InnerS K A → Res (β ⊕ (σ × NodeId))) :
    Nat → σ → NodeId → Res (β ⊕ (σ × Nat))
  | _, st, .leaf i => .ok (.inr (st, i))
  | 0, _, .inner _ => .error .fuel
  | fuel + 1, st, .inner i => do
    let node ← s.getInner i
    match ← step st i node with
    | .inl b => return .inl b
    | .inr (st', c) => descend s step fuel st' c

/-- `descend` for loops that never stop at an inner node. -/
def descendLeaf {σ : Type} (s : Store K V A)
    (step : σ → Nat → InnerS K A → Res (σ × NodeId)) (st : σ) (root : NodeId) : Res (σ × Nat) := do
  match ← descend (β := Empty) s
    (fun st i n => do let r ← step st i n; return .inr r) s.fuel st root with
  | .inl e => nomatch e
  | .inr r => return r

/-- `able_to_lend` of leaves, src/tree/leaf_node.rs:102-104. -/
def leafAbleToLend (l : LeafS K V) : Bool := decide (minN < l.size)

/-- `able_to_lend` of inner nodes, src/tree/inner_node.rs:104-106. -/
def innerAbleToLend (n : InnerS K A) : Bool := decide (minN < n.size)

/-- `locate_slot_with_value`, src/tree/leaf_node.rs:320-341. -/
def locateSlotWithValue [LinearOrder K] (l : LeafS K V) (k : K) : Res (Nat × Option V) := do
  match ← l.locateSlot k with
  | .found i =>
    let v ← l.vs.read i
    return (i, some v)
  | .vacant i => return (i, none)

section Aug
variable [Augmentation K V A]

/-- `S::Augmentation::from_leaf(leaf.keys(), leaf.values())`. -/
def leafAug (l : LeafS K V) : Res A := do
  let ks ← l.keys
  let vs ← l.values
  return Augmentation.fromLeaf ks vs

variable (V) in
/-- `S::Augmentation::from_inner(inner.keys(), inner.augmentations())`. -/
def innerAug (n : InnerS K A) : Res A := do
  let ks ← n.keys
  let as ← n.augmentations
  return Augmentation.fromInner V ks as

/-- `new_augmentation_for_id`, src/tree/mod.rs:298-309. -/
def newAugmentationForId (s : Store K V A) : NodeId → Res A
  | .inner i => do
    let n ← s.getInner i
    innerAug V n
  | .leaf i => do
    let l ← s.getLeaf i
    leafAug l

/-- `BPlusTree::new` on a default store, src/tree/mod.rs:100-110. -/
def Tree.new : Tree K V A :=
  let (s, id) := (Store.empty : Store K V A).newEmptyLeaf
  { root := .leaf id, rootAug := Augmentation.dflt K V, len := 0, store := s, st := {} }

variable [LinearOrder K]

/-- "fix r_leaf's next's prev", src/tree/mod.rs:325-330. -/
def setPrevOfNext (s : Store K V A) (next : Option Nat) (id : Nat) : Res (Store K V A) :=
  match next with
  | some next => do
    let nl ← s.getLeaf next
    return s.setLeaf next { nl with prev := some id }
  | none => return s

/-- `insert_leaf`, src/tree/mod.rs:311-341. -/
def insertLeaf (s : Store K V A) (id : Nat) (k : K) (v : V) :
    Res (Store K V A × InsertResult K V) := do
  let leaf ← s.getLeaf id
  match ← leaf.tryUpsert k v with
  | (leaf', .inserted) => return ((s.setLeaf id leaf').cacheLeaf id, .inserted)
  | (leaf', .updated v0) => return (s.setLeaf id leaf', .updated v0)
  | (_, .isFull idx k v) =>
    let (s, rightId) := s.reserveLeaf
    let lLeaf ← s.getLeaf id
    let (lLeaf, rLeaf) ← lLeaf.splitNewLeaf idx (k, v) rightId id
    let s := s.setLeaf id lLeaf
    let kv ← rLeaf.dataAt 0
    let s ← setPrevOfNext s rLeaf.next rightId
    let s ← s.assignLeaf rightId rLeaf
    let updatedId := if splitOrigin ≤ idx then rightId else id
    return (s.cacheLeaf updatedId, .split kv.1 (.leaf rightId))

/-- The descent of `insert_inner`, src/tree/mod.rs:231-244. -/
def insertDescendStep (k : K) (st : List StackEntry) (i : Nat) (n : InnerS K A) :
    Res (List StackEntry × NodeId) := do
  let (idx, c) ← n.locateChild k
  let st ← pushStack st (i, idx, c)
  return (st, c)

/-- The ascend loop of `insert_inner`, src/tree/mod.rs:246-295. -/
def insertAscend (s : Store K V A) :
    List StackEntry → InsertResult K V → Res (Store K V A × InsertResult K V)
  | [], r => return (s, r)
  | (id, childIdx, childId) :: stack, .split key rightChild => do
    let rightAug ← newAugmentationForId s rightChild
    let childAug ← newAugmentationForId s childId
    let node ← s.getInner id
    let node ← node.setAugmentation childIdx childAug
    if node.size ≠ innerN then
      let node ← node.insertAt childIdx key rightChild rightAug
      insertAscend (s.setInner id node) stack .inserted
    else
      let (promptK, node, newNode) ← node.split childIdx key rightChild rightAug
      let (s, newId) := (s.setInner id node).addInner newNode
      insertAscend s stack (.split promptK (.inner newId))
  | (id, childIdx, childId) :: stack, .inserted => do
    let childAug ← newAugmentationForId s childId
    let node ← s.getInner id
    let node ← node.setAugmentation childIdx childAug
    insertAscend (s.setInner id node) stack .inserted
  | (id, childIdx, childId) :: stack, .updated v => do
    let childAug ← newAugmentationForId s childId
    let node ← s.getInner id
    let node ← node.setAugmentation childIdx childAug
    insertAscend (s.setInner id node) stack (.updated v)

/-- `insert_inner`, src/tree/mod.rs:225-296. -/
def insertInner (s : Store K V A) (id : Nat) (k : K) (v : V) :
    Res (Store K V A × InsertResult K V) := do
  let (stack, leafId) ← descendLeaf s (insertDescendStep k) [] (.inner id)
  let (s, r) ← insertLeaf s leafId k v
  insertAscend s stack r

/-- `descend_insert`, src/tree/mod.rs:213-223. -/
def descendInsert (s : Store K V A) (nodeId : NodeId) (k : K) (v : V) :
    Res (Store K V A × InsertResult K V) :=
  match nodeId with
  | .inner id => insertInner s id k v
  | .leaf id => insertLeaf s id k v

/-- `BPlusTree::insert`, src/tree/mod.rs:156-197. -/
def Tree.insert (t : Tree K V A) (k : K) (v : V) : Res (Option V × Tree K V A) := do
  let (s, r) ← descendInsert t.store t.root k v
  match r with
  | .inserted =>
    let a ← newAugmentationForId s t.root
    return (none, { t with store := s, rootAug := a, len := t.len + 1 })
  | .updated prev =>
    let a ← newAugmentationForId s t.root
    return (some prev, { t with store := s, rootAug := a })
  | .split k newChild =>
    let prevRootAug ← newAugmentationForId s t.root
    let newAug ← newAugmentationForId s newChild
    let newRoot ← InnerS.newFromIter [k] [t.root, newChild] [prevRootAug, newAug]
    let newRootAug ← innerAug V newRoot
    let (s, newRootId) := s.addInner newRoot
    return (none, { t with
      store := s, root := .inner newRootId, rootAug := newRootAug, len := t.len + 1 })

end Aug

section Read
variable [LinearOrder K]

/-- One step of the descents by key (mod.rs:425-427, 450-452, 592, 643). -/
def locateStep (k : K) (_ : Unit) (_ : Nat) (n : InnerS K A) : Res (Unit × NodeId) := do
  let (_, c) ← n.locateChild k
  return ((), c)

/-- `find_in_leaf`, src/tree/mod.rs:435-442. -/
def findInLeaf (s : Store K V A) (leafId : Nat) (k : K) : Res (Option V) := do
  let l ← s.getLeaf leafId
  let (_, v) ← locateSlotWithValue l k
  return v

/-- `find_descend` up to the cache write, src/tree/mod.rs:418-433. -/
def findDescendLeaf (s : Store K V A) (root : NodeId) (k : K) : Res Nat := do
  let (_, leafId) ← descendLeaf s (locateStep k) () root
  return leafId

/-- `BPlusTree::get`, src/tree/mod.rs:344-354, 418-433, 483-495. -/
def Tree.get (t : Tree K V A) (k : K) : Res (Option V × Tree K V A) := do
  match ← t.store.tryCache k with
  | some leafId =>
    let v ← findInLeaf t.store leafId k
    return (v, t)
  | none =>
    let leafId ← findDescendLeaf t.store t.root k
    let s := t.store.cacheLeaf leafId
    let v ← findInLeaf s leafId k
    return (v, { t with store := s })

/-- `locate_slot_mut` (src/tree/leaf_node.rs:343-364) and the caller's write through the reference. -/
def updateInLeaf (s : Store K V A) (leafId : Nat) (k : K) (f : V → V) :
    Res (Option V × Store K V A) := do
  let l ← s.getLeaf leafId
  match ← l.locateSlot k with
  | .found idx =>
    let v ← l.vs.read idx
    let vs ← l.vs.write idx (f v)
    return (some v, s.setLeaf leafId { l with vs })
  | .vacant _ => return (none, s)

/-- `BPlusTree::get_mut`, src/tree/mod.rs:357-372, 444-479, and the caller's update with `f`. -/
def Tree.getMut (t : Tree K V A) (k : K) (f : V → V) : Res (Option V × Tree K V A) := do
  match ← t.store.tryCache k with
  | some leafId =>
    let (v, s) ← updateInLeaf t.store leafId k f
    return (v, { t with store := s })
  | none =>
    let leafId ← findDescendLeaf t.store t.root k
    let s := t.store.cacheLeaf leafId
    let (v, s) ← updateInLeaf s leafId k f
    return (v, { t with store := s })

/-- `locate_leaf`, src/tree/mod.rs:583-607. -/
def Tree.locateLeaf (t : Tree K V A) (k : K) : Res Nat := do
  match ← t.store.tryCache k with
  | some leafId => return leafId
  | none => findDescendLeaf t.store t.root k

end Read

/-- `child_id(0)` step of `first` and `first_leaf`, src/tree/mod.rs:385, 541. -/
def firstStep (_ : Unit) (_ : Nat) (n : InnerS K A) : Res (Unit × NodeId) := do
  let c ← n.childId 0
  return ((), c)

/-- `child_id(len)` step of `last` and `last_leaf`, src/tree/mod.rs:407, 564. -/
def lastStep (_ : Unit) (_ : Nat) (n : InnerS K A) : Res (Unit × NodeId) := do
  let c ← n.childId n.size
  return ((), c)

/-- `first_leaf`, src/tree/mod.rs:535-555. -/
def Tree.firstLeaf (t : Tree K V A) : Res Nat := do
  let (_, id) ← descendLeaf t.store firstStep () t.root
  return id

/-- `last_leaf`, src/tree/mod.rs:558-578. -/
def Tree.lastLeaf (t : Tree K V A) : Res Nat := do
  let (_, id) ← descendLeaf t.store lastStep () t.root
  return id

/-- `is_empty`, src/tree/mod.rs:146-148. -/
def Tree.isEmpty (t : Tree K V A) : Bool := t.len == 0

/-- `first`, src/tree/mod.rs:375-394. -/
def Tree.first (t : Tree K V A) : Res (Option (K × V)) :=
  if t.isEmpty then return none else do
    let id ← t.firstLeaf
    let l ← t.store.getLeaf id
    let kv ← l.dataAt 0
    return some kv

/-- `last`, src/tree/mod.rs:397-416. -/
def Tree.last (t : Tree K V A) : Res (Option (K × V)) :=
  if t.isEmpty then return none else do
    let id ← t.lastLeaf
    let l ← t.store.getLeaf id
    if l.size = 0 then .error .panic
    let kv ← l.dataAt (l.size - 1)
    return some kv

/-- `clear`, src/tree/mod.rs:663-666. -/
def Tree.clear [Augmentation K V A] (_ : Tree K V A) : Tree K V A := Tree.new

end Raw
end Bpt
