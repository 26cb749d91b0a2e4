import Verif.Model.BulkLedger
import Verif.Model.Crash
import Verif.Model.Slots

/-!
# Panics in user code during `bulk_load`

`bulk_load` calls `==`, `K::clone`, `A::clone`, `from_leaf` and `from_inner`. A panic there unwinds out of
`bulk_load`, and what its local variables own is destroyed. Here `bulk_load` is written again so that it
also lists what the local variables own at each of these calls (`Wreck`). A panic in a destructor, and a
panic of the iterator or of the sort in `from_iter` (before `bulk_load` begins) are not modelled.
-/

namespace Bpt
variable {K V A : Type}

/-- What exists when user code is called inside `bulk_load`. -/
structure Wreck (K V A : Type) where
  /-- items already dropped, because the next one had the same key -/
  gone : List (K × V) := []
  /-- items that the iterator (or the call of its `next`) owns -/
  iter : List (K × V) := []
  /-- items in the local variable `leaf` -/
  leaf : List (K × V) := []
  /-- `node_store` -/
  store : Store K V A
  /-- keys in local variables: a key range being computed -/
  keys : List K := []
  /-- the entries of the vectors `nodes` of all layers begun so far -/
  scratch : List (LayerNode K A) := []
  /-- the local variable `inner` of `build_inner_layer`, or `node` of `new_from_iter` -/
  node : Option (InnerS K A) := none

/-- The items in the leaves of a store. -/
def Store.items (s : Store K V A) : List (K × V) :=
  s.leaves.flatMap (fun o => match o with | some l => l.data | none => [])

/-- Unwinding: the items dropped, and the keys and augmentations dropped. A `LeafNode` has no `Drop`, so
the items in leaves are leaked. `Drop for InnerNode` (`InnerS.drop`) drops the keys `..size` and the
augmentations `..size + 1`, whether or not they were ever written. -/
def Wreck.unwind (w : Wreck K V A) : Res (List (K × V) × List (Event K A)) := do
  let (ks, as) ← (match w.node with
    | some n => n.drop
    | none => return ([], []) : Res (List K × List A))
  return (w.iter, ks.map .dropKey ++ as.map .dropAug ++ w.keys.map .dropKey ++ w.scratch.flatMap LayerNode.dropEvents ++
    w.store.dropEvents)

/-- `DeDupKeepLast`, src/tree/bulk_load.rs:106-114: the iterator over the data and `current_item`. The
number of comparisons made and the items dropped so far are added. -/
structure DeDup (K V : Type) where
  asked : Nat
  rest : List (K × V)
  cur : Option (K × V)
  gone : List (K × V)

/-- The items the iterator owns. -/
def DeDup.owned (d : DeDup K V) : List (K × V) := d.cur.toList ++ d.rest

/-- `DeDupKeepLast::next`, src/tree/bulk_load.rs:123-136. While `same_bucket` runs, `item` is a local
variable of `next`. -/
def dedupNextT (eq : Nat → K → K → Bool) (w : Wreck K V A) :
    List (K × V) → Nat → Option (K × V) → List (K × V) →
      Traced (Wreck K V A) (Option (K × V) × DeDup K V)
  | [], i, cur, gone => return (cur, ⟨i, [], none, gone⟩)
  | item :: rest, i, none, gone => dedupNextT eq w rest i (some item) gone
  | item :: rest, i, some c, gone => do
    Traced.call .compare { w with gone := gone, iter := c :: item :: rest }
    if eq i c.1 item.1 then dedupNextT eq w rest (i + 1) (some item) (gone ++ [c])
    else return (some c, ⟨i + 1, rest, some item, gone⟩)

/-- The loop of `LeafNode::set_data`, src/tree/leaf_node.rs:156-168, with `n` rounds left and the items
`leaf` already written. -/
def setDataT (eq : Nat → K → K → Bool) (w : Wreck K V A) :
    Nat → List (K × V) → DeDup K V → Traced (Wreck K V A) (List (K × V) × DeDup K V)
  | 0, leaf, d => return (leaf, d)
  | n + 1, leaf, d => do
    match ← dedupNextT eq { w with leaf := leaf } d.rest d.asked d.cur d.gone with
    | (none, d) => return (leaf, d)
    | (some x, d) => setDataT eq w n (leaf ++ [x]) d

/-- `LeafNode::key_range`, src/tree/leaf_node.rs:125-134. -/
def Leaf.keyRangeT (w : Wreck K V A) (l : Leaf K V) : Traced (Wreck K V A) (Option K × Option K) := do
  let r ← l.keyRange
  (match r.1 with
    | some _ => Traced.call .cloneKey w
    | none => return () : Traced (Wreck K V A) Unit)
  (match r.2 with
    | some _ => Traced.call .cloneKey { w with keys := w.keys ++ r.1.toList }
    | none => return () : Traced (Wreck K V A) Unit)
  return r

section
variable [Augmentation K V A]

/-- The leaf loop of `bulk_load`, src/tree/bulk_load.rs:23-50; `nodes` are the entries of the vector so
far. -/
def bulkLeavesT (eq : Nat → K → K → Bool) : Nat → Store K V A → Option Nat → List (LayerNode K A) →
    DeDup K V → Traced (Wreck K V A) (Store K V A × List (LayerNode K A) × Nat × DeDup K V)
  | 0, _, _, _, _ => (.error .fuel : Res _)
  | fuel + 1, s, prevId, nodes, d => do
    let (chunk, d) ← setDataT eq { store := s, scratch := nodes } leafN [] d
    if chunk.isEmpty then
      return (s, [], 0, d)
    else
      let (s, leafId) := s.reserveLeaf
      let leaf : Leaf K V := { data := chunk, prev := prevId, next := none }
      let s ← linkFromPrev s prevId leafId
      let w : Wreck K V A :=
        { gone := d.gone, iter := d.owned, leaf := chunk, store := s, scratch := nodes }
      let range ← leaf.keyRangeT w
      Traced.call (.ofLeaf leaf) { w with keys := range.1.toList ++ range.2.toList }
      let node : LayerNode K A := (.leaf leafId, range, leafAug leaf)
      let s ← s.assignLeaf leafId leaf
      let (s, rest, n, d) ← bulkLeavesT eq fuel s (some leafId) (nodes ++ [node]) d
      return (s, node :: rest, leaf.len + n, d)

omit [Augmentation K V A] in
/-- `Option<K>::clone`, src/tree/bulk_load.rs:81-82 and 85. -/
def cloneOptionT (w : Wreck K V A) : Option K → Traced (Wreck K V A) Unit
  | some _ => Traced.call .cloneKey w
  | none => return ()

/-- An array of `n` slots of which the first ones hold `xs`. -/
def Slots.filled {α : Type} (n : Nat) (xs : List α) : Slots α :=
  xs.map some ++ List.replicate (n - xs.length) none

/-- The node inside `new_from_iter` (src/tree/inner_node.rs:137-158) when the keys `ks`, the child ids
`cs` and the augmentations `as` have been written. Its `size` stays 0 until line 160. -/
def InnerS.unfinished (ks : List K) (cs : List NodeId) (as : List A) : InnerS K A :=
  ⟨0, Slots.filled innerN ks, Slots.filled (innerN + 1) cs, Slots.filled (innerN + 1) as⟩

/-- The node when `new_from_iter` has returned. -/
def InnerS.finished (n : Inner K A) : InnerS K A :=
  ⟨n.keys.length, Slots.filled innerN n.keys, Slots.filled (innerN + 1) n.childs,
    Slots.filled (innerN + 1) n.augs⟩

omit [Augmentation K V A] in
/-- The first loop of `new_from_iter`, src/tree/inner_node.rs:143-147, with the iterator of
src/tree/bulk_load.rs:84-86; the keys `ks` have been written. -/
def cloneKeysT (w : Wreck K V A) : List K → List (LayerNode K A) → Traced (Wreck K V A) (List K)
  | ks, [] => return ks
  | ks, c :: cs => do
    cloneOptionT { w with node := some (.unfinished ks [] []) } c.2.1.1
    let k ← expectStartKey c
    cloneKeysT w (ks ++ [k]) cs

omit [Augmentation K V A] in
/-- The third loop of `new_from_iter`, src/tree/inner_node.rs:155-157, with the iterator of
src/tree/bulk_load.rs:88; the augmentations `as` have been written. -/
def cloneAugsT (w : Wreck K V A) (ks : List K) (ids : List NodeId) :
    List A → List (LayerNode K A) → Traced (Wreck K V A) (List A)
  | as, [] => return as
  | as, c :: cs => do
    Traced.call .cloneAug { w with node := some (.unfinished ks ids as) }
    cloneAugsT w ks ids (as ++ [c.2.2]) cs

/-- One iteration of the loop of `build_inner_layer`, src/tree/bulk_load.rs:79-99. -/
def buildInnerT (w : Wreck K V A) (childs : List (LayerNode K A)) :
    Traced (Wreck K V A) (Store K V A × LayerNode K A) := do
  let startKey := (← (match childs with | c :: _ => .ok c | [] => .error .panic :
    Res (LayerNode K A))).2.1.1
  cloneOptionT w startKey
  let endKey := (← (match childs.getLast? with | some c => .ok c | none => .error .panic :
    Res (LayerNode K A))).2.1.1
  cloneOptionT { w with keys := startKey.toList } endKey
  let w := { w with keys := startKey.toList ++ endKey.toList }
  let keys ← cloneKeysT w [] (childs.drop 1)
  let augs ← cloneAugsT w keys (childs.map (·.1)) [] childs
  let inner ← Inner.newFromIter keys (childs.map (·.1)) augs
  Traced.call (.ofInner inner) { w with node := some (.finished inner) }
  let aug := innerAug V inner
  let (s, id) := w.store.addInner inner
  return (s, (.inner id, (startKey, endKey), aug))

/-- The loop of `build_inner_layer` over the chunks, src/tree/bulk_load.rs:79-99. -/
def buildLayerT (w : Wreck K V A) :
    List (List (LayerNode K A)) → Traced (Wreck K V A) (Store K V A × List (LayerNode K A))
  | [] => return (w.store, [])
  | c :: cs => do
    let (s, n) ← buildInnerT w c
    let (s, ns) ← buildLayerT { w with store := s, scratch := w.scratch ++ [n] } cs
    return (s, n :: ns)

/-- `build_inner_layer`, src/tree/bulk_load.rs:59-102. The vectors of the layers below stay until it
returns; `w.scratch` holds them, with `nodes`. -/
def buildInnerLayerT : Nat → Wreck K V A → List (LayerNode K A) →
    Traced (Wreck K V A) (Store K V A × NodeId)
  | 0, _, _ => (.error .fuel : Res _)
  | fuel + 1, w, nodes =>
    match nodes with
    | [] => (.error .panic : Res _)
    | [n] => return (w.store, n.1)
    | _ => do
      let (s, nodes') ← buildLayerT w (chunks (innerN + 1) nodes.length nodes)
      buildInnerLayerT fuel { w with store := s, scratch := w.scratch ++ nodes' } nodes'

/-- `new_from_parts`, src/tree/mod.rs:113-133. -/
def Tree.newFromPartsT (w : Wreck K V A) (root : NodeId) (len : Nat) :
    Traced (Wreck K V A) (Tree K V A) := do
  let a ← (if 0 < len then newAugmentationT w w.store root else return Augmentation.dflt K V :
    Traced (Wreck K V A) A)
  return { root := root, rootAug := a, len := len, store := w.store, st := {} }

/-- `bulk_load`, src/tree/bulk_load.rs:8-55. -/
def Tree.bulkLoadT (eq : Nat → K → K → Bool) (data : List (K × V)) :
    Traced (Wreck K V A) (Tree K V A) :=
  if data.isEmpty then return Tree.new else do
    let (s, nodes, count, d) ← bulkLeavesT eq (data.length + 1) (Store.empty : Store K V A) none []
      ⟨0, data, none, []⟩
    let w : Wreck K V A := { gone := d.gone, iter := d.owned, store := s, scratch := nodes }
    let (s, root) ← buildInnerLayerT (nodes.length + 1) w nodes
    Tree.newFromPartsT { w with store := s, scratch := [] } root count

end
end Bpt
