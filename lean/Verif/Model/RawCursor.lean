import Verif.Model.RawRemove
import Verif.Model.Cursor
import Verif.Model.Iter
import Verif.Model.Visit
import Verif.Model.Bulk

/-!
# The tree on raw node arrays: cursors, iterators, visitors, bulk loading

As `Model/Cursor.lean`, `Model/Iter.lean`, `Model/Visit.lean` and `Model/Bulk.lean`.
-/

namespace Bpt
namespace Raw
variable {K V A : Type}

/-! ## Cursors (src/tree/cursor.rs) -/

section Cursor
variable [LinearOrder K]

/-- `Cursor::locate_leaf`, src/tree/cursor.rs:210-225. -/
def cursorLocateLeaf (c : Cursor K) (t : Tree K V A) : Res (Nat × LeafS K V) := do
  let hit ← (match t.store.tryGetLeaf c.leafIdHint with
    | some leaf => do
      let b ← leaf.inRange c.k
      return if b then some leaf else none
    | none => return none : Res (Option (LeafS K V)))
  match hit with
  | some leaf => return (c.leafIdHint, leaf)
  | none =>
    let leafId ← t.locateLeaf c.k
    let leaf ← t.store.getLeaf leafId
    return (leafId, leaf)

omit [LinearOrder K] in
/-- `Cursor::first`, src/tree/cursor.rs:39-56. -/
def Tree.cursorFirst (t : Tree K V A) : Res (Option (Cursor K × V)) := do
  let leafId ← t.firstLeaf
  let leaf ← t.store.getLeaf leafId
  let kv ← leaf.dataAt 0
  return some (⟨kv.1, leafId, 0⟩, kv.2)

omit [LinearOrder K] in
/-- `Cursor::last`, src/tree/cursor.rs:60-76. -/
def Tree.cursorLast (t : Tree K V A) : Res (Option (Cursor K × V)) := do
  let leafId ← t.lastLeaf
  let leaf ← t.store.getLeaf leafId
  if leaf.size = 0 then .error .panic
  let kv ← leaf.dataAt (leaf.size - 1)
  return some (⟨kv.1, leafId, leaf.size - 1⟩, kv.2)

omit [LinearOrder K] in
/-- The step to the previous leaf in `prev_with_value`, src/tree/cursor.rs:99-104 and 114-119. -/
def prevLeafEnd (t : Tree K V A) (leaf : LeafS K V) : Res (Option (Nat × LeafS K V)) :=
  match leaf.prev with
  | some prevId => do
    let prev ← t.store.getLeaf prevId
    if prev.size = 0 then .error .panic
    return some (prev.size - 1, prev)
  | none => return none

/-- The test of the offset hint, src/tree/cursor.rs:95-96, 150-151. -/
def cursorHintHits (c : Cursor K) (leaf : LeafS K V) : Res Bool := do
  match ← leaf.tryDataAt c.offsetHint with
  | some kv => return decide (kv.1 = c.k)
  | none => return false

/-- The choice of the previous entry in `prev_with_value`, src/tree/cursor.rs:95-121. -/
def cursorPrevPos (c : Cursor K) (t : Tree K V A) (leaf : LeafS K V) :
    Res (Option (Nat × LeafS K V)) := do
  let hit ← cursorHintHits c leaf
  if hit then
    if 0 < c.offsetHint then return some (c.offsetHint - 1, leaf)
    else prevLeafEnd t leaf
  else
    let slot ← leaf.locateSlot c.k
    let offset := match slot with
      | .found i => i
      | .vacant i => i
    if 0 < offset then return some (offset - 1, leaf)
    else prevLeafEnd t leaf

/-- `Cursor::prev_with_value`, src/tree/cursor.rs:86-132. -/
def cursorPrevWithValue (c : Cursor K) (t : Tree K V A) : Res (Option (Cursor K × V)) := do
  let (leafId, leaf) ← cursorLocateLeaf c t
  match ← cursorPrevPos c t leaf with
  | none => return none
  | some (offset, leaf) =>
    let kv ← leaf.dataAt offset
    return some (⟨kv.1, leafId, offset⟩, kv.2)

/-- The choice of the next offset in `next_with_value`, src/tree/cursor.rs:150-159. -/
def cursorNextOffset (c : Cursor K) (leaf : LeafS K V) : Res Nat := do
  let hit ← cursorHintHits c leaf
  if hit then return c.offsetHint + 1
  else
    let (offset, value) ← locateSlotWithValue leaf c.k
    match value with
    | some _ => return offset + 1
    | none => return offset

omit [LinearOrder K] in
/-- The end of `next_with_value`, src/tree/cursor.rs:161-184. -/
def forwardFrom (t : Tree K V A) (leafId : Nat) (leaf : LeafS K V) (nextOffset : Nat) :
    Res (Option (Cursor K × V)) :=
  if nextOffset < leaf.size then do
    let kv ← leaf.dataAt nextOffset
    return some (⟨kv.1, leafId, nextOffset⟩, kv.2)
  else
    match leaf.next with
    | none => return none
    | some leafId => do
      let leaf ← t.store.getLeaf leafId
      let kv ← leaf.dataAt 0
      return some (⟨kv.1, leafId, 0⟩, kv.2)

/-- `Cursor::next_with_value`, src/tree/cursor.rs:141-185. -/
def cursorNextWithValue (c : Cursor K) (t : Tree K V A) : Res (Option (Cursor K × V)) := do
  let (leafId, leaf) ← cursorLocateLeaf c t
  let nextOffset ← cursorNextOffset c leaf
  forwardFrom t leafId leaf nextOffset

/-- `Cursor::value`, src/tree/cursor.rs:193-207. -/
def cursorValue (c : Cursor K) (t : Tree K V A) : Res (Option V) := do
  let (_, leaf) ← cursorLocateLeaf c t
  let o ← leaf.tryDataAt c.offsetHint
  let hit : Option V := match o with
    | some kv => if kv.1 = c.k then some kv.2 else none
    | none => none
  match hit with
  | some v => return some v
  | none =>
    let (_, v) ← locateSlotWithValue leaf c.k
    return v

/-- `get_cursor`, src/tree/mod.rs:637-660. -/
def Tree.getCursor (t : Tree K V A) (k : K) : Res (Option (Cursor K × Option V)) := do
  let leafId ← findDescendLeaf t.store t.root k
  let leaf ← t.store.getLeaf leafId
  let (idx, v) ← locateSlotWithValue leaf k
  return some (⟨k, leafId, idx⟩, v)

end Cursor

/-! ## Iterators (src/tree/iterator.rs) -/

/-- `Iter`, src/tree/iterator.rs:9-16. -/
structure Iter (K V : Type) where
  len : Nat
  leaf : Option (LeafS K V)
  leafOffset : Nat
  end_ : Option (LeafS K V × Nat)

/-- `Iter::new`, src/tree/iterator.rs:19-30. -/
def Tree.iter (t : Tree K V A) : Res (Iter K V) := do
  let id ← t.firstLeaf
  let leaf ← t.store.getLeaf id
  return { len := t.len, leaf := some leaf, leafOffset := 0, end_ := none }

/-- `Iter::next`, src/tree/iterator.rs:41-70. -/
def Iter.next (t : Tree K V A) (it : Iter K V) : Res (Option (K × V) × Iter K V) :=
  if it.len = 0 then return (none, it) else
  match it.leaf with
  | none => return (none, it)
  | some leaf => do
    let kv ← leaf.dataAt it.leafOffset
    if it.leafOffset + 1 < leaf.size then
      return (some kv, { it with leafOffset := it.leafOffset + 1, len := it.len - 1 })
    else
      match leaf.next with
      | some nextId =>
        let nl ← t.store.getLeaf nextId
        return (some kv, { it with leaf := some nl, leafOffset := 0, len := it.len - 1 })
      | none =>
        return (some kv, { it with leaf := none, leafOffset := 0, len := it.len - 1 })

/-- `Iter::next_back`, src/tree/iterator.rs:74-110. -/
def Iter.nextBack (t : Tree K V A) (it : Iter K V) : Res (Option (K × V) × Iter K V) :=
  if it.len = 0 then return (none, it) else
  match it.end_ with
  | some (leaf, offset) =>
    if 0 < offset then do
      let kv ← leaf.dataAt (offset - 1)
      return (some kv, { it with end_ := some (leaf, offset - 1) })
    else
      match leaf.prev with
      | none => return (none, it)
      | some prevId => do
        let pl ← t.store.getLeaf prevId
        if pl.size = 0 then .error .panic
        let kv ← pl.dataAt (pl.size - 1)
        return (some kv, { it with end_ := some (pl, pl.size - 1) })
  | none => do
    let lastId ← t.lastLeaf
    let ll ← t.store.getLeaf lastId
    if ll.size = 0 then return (none, it)
    let kv ← ll.dataAt (ll.size - 1)
    return (some kv, { it with end_ := some (ll, ll.size - 1) })

/-- One call on the borrowed iterator. -/
def Iter.call (t : Tree K V A) (it : Iter K V) : Dir → Res (Option (K × V) × Iter K V)
  | .front => it.next t
  | .back => it.nextBack t

/-- A schedule of calls on the borrowed iterator, each answer with the `size_hint` after it
(`len`, src/tree/iterator.rs:37-39). -/
def Iter.runCalls (t : Tree K V A) (it : Iter K V) :
    List Dir → Res (List (Option (K × V) × Nat))
  | [] => return []
  | d :: ds => do
    let (o, it) ← it.call t d
    let rest ← Iter.runCalls t it ds
    return (o, it.len) :: rest

/-- `IntoIter`, src/tree/iterator.rs:116-123. -/
structure IntoIter (K V A : Type) where
  store : Store K V A
  len : Nat
  pos : Nat × Nat
  end_ : Nat × Nat

/-- `IntoIter::new`, src/tree/iterator.rs:126-141. -/
def Tree.intoIter (t : Tree K V A) : Res (IntoIter K V A) := do
  let firstId ← t.firstLeaf
  let lastId ← t.lastLeaf
  let l ← t.store.getLeaf lastId
  return { store := t.store, len := t.len, pos := (firstId, 0), end_ := (lastId, l.size) }

/-- `IntoIter::next`, src/tree/iterator.rs:152-183. -/
def IntoIter.nextAux : Nat → IntoIter K V A → Res (Option (K × V) × IntoIter K V A)
  | 0, _ => .error .fuel
  | fuel + 1, it =>
    if it.len = 0 then return (none, it) else do
    let leaf ← it.store.getLeaf it.pos.1
    if it.pos.2 < leaf.size then
      let (kv, leaf) ← leaf.takeData it.pos.2
      return (some kv, { it with
        store := it.store.setLeaf it.pos.1 leaf, len := it.len - 1, pos := (it.pos.1, it.pos.2 + 1) })
    else
      match leaf.next with
      | some nextId => IntoIter.nextAux fuel { it with pos := (nextId, 0) }
      | none => .error .panic

/-- `IntoIter::next`. -/
def IntoIter.next (it : IntoIter K V A) : Res (Option (K × V) × IntoIter K V A) :=
  IntoIter.nextAux (it.store.leaves.length + 1) it

/-- `IntoIter::next_back`, src/tree/iterator.rs:187-218. -/
def IntoIter.nextBackAux : Nat → IntoIter K V A → Res (Option (K × V) × IntoIter K V A)
  | 0, _ => .error .fuel
  | fuel + 1, it =>
    if it.len = 0 then return (none, it) else do
    let leaf ← it.store.getLeaf it.end_.1
    if 0 < it.end_.2 then
      let (kv, leaf) ← leaf.takeData (it.end_.2 - 1)
      return (some kv, { it with
        store := it.store.setLeaf it.end_.1 leaf, len := it.len - 1,
        end_ := (it.end_.1, it.end_.2 - 1) })
    else
      match leaf.prev with
      | some prevId => do
        let pl ← it.store.getLeaf prevId
        IntoIter.nextBackAux fuel { it with end_ := (prevId, pl.size) }
      | none => .error .panic

/-- `IntoIter::next_back`. -/
def IntoIter.nextBack (it : IntoIter K V A) : Res (Option (K × V) × IntoIter K V A) :=
  IntoIter.nextBackAux (it.store.leaves.length + 1) it

/-- One call on the owning iterator. -/
def IntoIter.call (it : IntoIter K V A) : Dir → Res (Option (K × V) × IntoIter K V A)
  | .front => it.next
  | .back => it.nextBack

/-- A schedule of calls on the owning iterator, each answer with the `size_hint` after it. -/
def IntoIter.runCalls (it : IntoIter K V A) :
    List Dir → Res (List (Option (K × V) × Nat) × IntoIter K V A)
  | [] => return ([], it)
  | d :: ds => do
    let (o, it) ← it.call d
    let (rest, it') ← IntoIter.runCalls it ds
    return ((o, it.len) :: rest, it')

/-- `Drop for IntoIter`, src/tree/iterator.rs:224-229. Returns the items dropped and the state in
which the fields of the iterator are dropped afterwards. -/
def IntoIter.dropAux : Nat → IntoIter K V A → Res (List (K × V) × IntoIter K V A)
  | 0, _ => .error .fuel
  | fuel + 1, it => do
    let (o, it) ← it.next
    match o with
    | none => return ([], it)
    | some kv =>
      let (rest, it) ← IntoIter.dropAux fuel it
      return (kv :: rest, it)

/-- `Drop for IntoIter`. -/
def IntoIter.drop (it : IntoIter K V A) : Res (List (K × V) × IntoIter K V A) :=
  IntoIter.dropAux (it.len + 1) it

/-! ## Queries through augmentations (src/tree/mod.rs:669-788), visitors (src/tree/visit.rs) -/

section Search
variable {Q : Type} [SearchAugmentation K V A Q]

variable (V) in
/-- Inner step of `get_ref_by_augmentation`, src/tree/mod.rs:678-690. -/
def searchStep (st : List StackEntry × Q) (i : Nat) (n : InnerS K A) :
    Res (Unit ⊕ ((List StackEntry × Q) × NodeId)) := do
  let ks ← n.keys
  let as ← n.augmentations
  match SearchAugmentation.locateInInner V st.2 ks as with
  | none => return .inl ()
  | some (offset, q) =>
    let c ← n.childId offset
    let stack ← pushStack st.1 (i, offset, c)
    return .inr ((stack, q), c)

/-- `get_ref_by_augmentation`, src/tree/mod.rs:669-703. -/
def Tree.getRefByAugmentation (t : Tree K V A) (q : Q) : Res (Option EntryRef) := do
  match ← descend t.store (searchStep V) t.store.fuel ([], q) t.root with
  | .inl () => return none
  | .inr ((stack, q), leafId) =>
    let leaf ← t.store.getLeaf leafId
    let ks ← leaf.keys
    let vs ← leaf.values
    match SearchAugmentation.locateInLeaf A q ks vs with
    | none => return none
    | some slot => return some ⟨stack, leafId, slot⟩

/-- `get_by_augmentation` with `get_by_ref`, src/tree/mod.rs:706-712, 770-774. -/
def Tree.getByAugmentation (t : Tree K V A) (q : Q) : Res (Option (K × V)) := do
  match ← t.getRefByAugmentation q with
  | none => return none
  | some e =>
    let leaf ← t.store.getLeaf e.leafId
    let kv ← leaf.dataAt e.offset
    return some kv

/-- `get_mut_by_augmentation` with `get_mut_by_ref`, src/tree/mod.rs:715-723, 777-788. -/
def Tree.getMutByAugmentation (t : Tree K V A) (q : Q) (f : V → V) :
    Res (Option V × Tree K V A) := do
  match ← t.getRefByAugmentation q with
  | none => return (none, t)
  | some e =>
    let leaf ← t.store.getLeaf e.leafId
    let kv ← leaf.dataAt e.offset
    let vs ← leaf.vs.write e.offset (f kv.2)
    return (some kv.2, { t with store := t.store.setLeaf e.leafId { leaf with vs } })

/-- `remove_by_augmentation`, src/tree/mod.rs:761-767. -/
def Tree.removeByAugmentation [Augmentation K V A] (t : Tree K V A) (q : Q) :
    Res (Option (K × V) × Tree K V A) := do
  match ← t.getRefByAugmentation q with
  | none => return (none, t)
  | some e =>
    let (kv, t) ← t.removeByRef e
    return (some kv, t)

end Search

section Rank
variable {R : Type} [RankAugmentation K V A R] [LinearOrder K]

variable (V) in
/-- Inner step of `rank_by_augmentation`, src/tree/mod.rs:735-745. -/
def rankStep (k : K) (rank : R) (_ : Nat) (n : InnerS K A) : Res (R × NodeId) := do
  let (idx, c) ← n.locateChild k
  let as ← n.augmentations
  if ¬ idx ≤ as.length then .error .panic
  return (RankAugmentation.foldInner V k rank (as.take idx), c)

/-- `rank_by_augmentation`, src/tree/mod.rs:726-758. -/
def Tree.rankByAugmentation (t : Tree K V A) (k : K) : Res (Except R R) := do
  let (rank, leafId) ← descendLeaf t.store (rankStep V k)
    (RankAugmentation.initialValue K V A) t.root
  let leaf ← t.store.getLeaf leafId
  let slot ← leaf.locateSlot k
  let ks ← leaf.keys
  return RankAugmentation.foldLeaf V A k rank slot ks

end Rank

/-- Inner step of `descend_visit`, src/tree/visit.rs:32-51. -/
def visitStep {σ R : Type} (v : Visitor K V A σ R) (st : σ) (_ : Nat) (n : InnerS K A) :
    Res (Option R ⊕ (σ × NodeId)) := do
  let ks ← n.keys
  let as ← n.augmentations
  match v.visitInner st ks as with
  | (.goDown idx, st') =>
    if n.size < idx then .error .panic else do
      let c ← n.childId idx
      return .inr (st', c)
  | (.cancel, _) => return .inl none
  | (.complete r, _) => return .inl (some r)

/-- `descend_visit`, src/tree/visit.rs:25-58. -/
def Tree.descendVisit {σ R : Type} (t : Tree K V A) (v : Visitor K V A σ R) (st : σ) :
    Res (Option R) := do
  match ← descend t.store (visitStep v) t.store.fuel st t.root with
  | .inl r => return r
  | .inr (st, leafId) =>
    let leaf ← t.store.getLeaf leafId
    let ks ← leaf.keys
    let vs ← leaf.values
    return v.visitLeaf st ks vs

/-! ## Bulk loading (src/tree/bulk_load.rs) -/

/-- `key_range`, src/tree/leaf_node.rs:125-134. -/
def keyRange (l : LeafS K V) : Res (Option K × Option K) := do
  if l.size = 0 then .error .panic
  let start ← (match l.prev with
    | some _ => do
      let k ← l.ks.read 0
      return some k
    | none => return none : Res (Option K))
  let stop ← (match l.next with
    | some _ => do
      let k ← l.ks.read (l.size - 1)
      return some k
    | none => return none : Res (Option K))
  return (start, stop)

section Bulk
variable [Augmentation K V A]

omit [Augmentation K V A] in
/-- The previous leaf's `next` is set to the new leaf, src/tree/bulk_load.rs:35-38. -/
def linkFromPrev (s : Store K V A) (prevId : Option Nat) (leafId : Nat) : Res (Store K V A) :=
  match prevId with
  | some p => do
    let pl ← s.getLeaf p
    return s.setLeaf p { pl with next := some leafId }
  | none => return s

/-- The leaf loop of `bulk_load`, src/tree/bulk_load.rs:23-50. -/
def bulkLeaves : Nat → Store K V A → Option Nat → List (K × V) →
    Res (Store K V A × List (LayerNode K A) × Nat)
  | 0, _, _, _ => .error .fuel
  | fuel + 1, s, prevId, data => do
    let leaf ← (LeafS.new : LeafS K V).setData data
    if leaf.size = 0 then
      return (s, [], 0)
    else
      let (s, leafId) := s.reserveLeaf
      let leaf := { leaf with prev := prevId }
      let s ← linkFromPrev s prevId leafId
      let range ← keyRange leaf
      let aug ← leafAug leaf
      let s ← s.assignLeaf leafId leaf
      let (s, rest, n) ← bulkLeaves fuel s (some leafId) (data.drop leafN)
      return (s, (.leaf leafId, range, aug) :: rest, leaf.size + n)

/-- One iteration of the loop of `build_inner_layer`, src/tree/bulk_load.rs:79-99. -/
def buildInner (s : Store K V A) (childs : List (LayerNode K A)) :
    Res (Store K V A × LayerNode K A) := do
  let startKey := (← (match childs with | c :: _ => .ok c | [] => .error .panic :
    Res (LayerNode K A))).2.1.1
  let endKey := (← (match childs.getLast? with | some c => .ok c | none => .error .panic :
    Res (LayerNode K A))).2.1.1
  let keys ← (childs.drop 1).mapM expectStartKey
  let inner ← InnerS.newFromIter keys (childs.map (·.1)) (childs.map (·.2.2))
  let aug ← innerAug V inner
  let (s, id) := s.addInner inner
  return (s, (.inner id, (startKey, endKey), aug))

/-- The loop of `build_inner_layer` over the chunks, src/tree/bulk_load.rs:79-99. -/
def buildLayer (s : Store K V A) :
    List (List (LayerNode K A)) → Res (Store K V A × List (LayerNode K A))
  | [] => return (s, [])
  | c :: cs => do
    let (s, n) ← buildInner s c
    let (s, ns) ← buildLayer s cs
    return (s, n :: ns)

/-- `build_inner_layer`, src/tree/bulk_load.rs:59-102. -/
def buildInnerLayer : Nat → Store K V A → List (LayerNode K A) → Res (Store K V A × NodeId)
  | 0, _, _ => .error .fuel
  | fuel + 1, s, nodes =>
    match nodes with
    | [] => .error .panic
    | [n] => return (s, n.1)
    | _ => do
      let (s, nodes') ← buildLayer s (chunks (innerN + 1) nodes.length nodes)
      buildInnerLayer fuel s nodes'

/-- `new_from_parts`, src/tree/mod.rs:113-133. -/
def Tree.newFromParts (s : Store K V A) (root : NodeId) (len : Nat) : Res (Tree K V A) := do
  let a ← (if 0 < len then newAugmentationForId s root else return Augmentation.dflt K V : Res A)
  return { root := root, rootAug := a, len := len, store := s, st := {} }

/-- `bulk_load`, src/tree/bulk_load.rs:8-55. -/
def Tree.bulkLoad [DecidableEq K] (data : List (K × V)) : Res (Tree K V A) :=
  if data.isEmpty then return Tree.new else do
    let items := dedupKeepLast data
    let (s, nodes, count) ← bulkLeaves (items.length + 1) (Store.empty : Store K V A) none items
    let (s, root) ← buildInnerLayer (nodes.length + 1) s nodes
    Tree.newFromParts s root count

end Bulk

/-- `Clone` of a slot of `inner_nodes`: `Option<Box<InnerNode>>` (inner_node.rs:36-71). -/
def cloneInner (o : Option (InnerS K A)) : Res (Option (InnerS K A)) :=
  match o with
  | some n => do
    let n ← n.clone
    return some n
  | none => return none

/-- `Clone` of a slot of `leaf_nodes`: `Option<Box<LeafNode>>` (leaf_node.rs:22-56). -/
def cloneLeaf (o : Option (LeafS K V)) : Res (Option (LeafS K V)) :=
  match o with
  | some l => do
    let l ← l.clone
    return some l
  | none => return none

/-- `Clone for NodeStoreVec`, src/tree/node_stores/vec_backed.rs:11-21: every box is cloned, the id of
the cached leaf is copied. -/
def Store.clone (s : Store K V A) : Res (Store K V A) := do
  let inners ← s.inners.mapM cloneInner
  let leaves ← s.leaves.mapM cloneLeaf
  return ⟨inners, leaves, s.cached⟩

/-- `Clone for BPlusTree` (derived), src/tree/mod.rs:86. -/
def Tree.clone (t : Tree K V A) : Res (Tree K V A) := do
  let store ← t.store.clone
  return { t with store }

end Raw
end Bpt
