import Verif.Model.Bulk
import Verif.Model.Ledger

/-!
# Bulk loading with arbitrary `==`, and the objects it makes and destroys

`bulk_load` asks nothing of the keys but `==` on neighbours, and it does not check that its input is
sorted. `bulkLoadU` takes the answers of these comparisons as an argument; `bulkLoadL` is the same
program with the list of its events (`Event`).
-/

namespace Bpt
variable {K V A : Type}

/-- `DeDupKeepLast`, src/tree/bulk_load.rs:106-136, where the `i`-th call of `same_bucket` answers
`eq i l r`: the items it yields and the items it drops (the `current_item` overwritten on line 130). -/
def dedupU (eq : Nat → K → K → Bool) : Nat → List (K × V) → List (K × V) × List (K × V)
  | _, [] => ([], [])
  | _, [x] => ([x], [])
  | i, x :: y :: rest =>
    let (kept, gone) := dedupU eq (i + 1) (y :: rest)
    if eq i x.1 y.1 then (kept, x :: gone) else (x :: kept, gone)

section
variable [Augmentation K V A]

/-- `bulk_load`, src/tree/bulk_load.rs:8-55, with the answers of `==`. -/
def Tree.bulkLoadU (eq : Nat → K → K → Bool) (data : List (K × V)) : Res (Tree K V A) :=
  if data.isEmpty then return Tree.new else do
    let items := (dedupU eq 0 data).1
    let (s, nodes, count) ← bulkLeaves (items.length + 1) (Store.empty : Store K V A) none items
    let (s, root) ← buildInnerLayer (nodes.length + 1) s nodes
    Tree.newFromParts s root count

/-! ## Events -/

omit [Augmentation K V A] in
/-- `LeafNode::key_range`, src/tree/leaf_node.rs:125-134: the keys returned are clones. -/
def Leaf.keyRangeL (l : Leaf K V) : Logged K A (Option K × Option K) := do
  let r ← l.keyRange
  Logged.emit (r.1.toList.map .cloneKey ++ r.2.toList.map .cloneKey)
  return r

omit [Augmentation K V A] in
/-- An entry of the vector `nodes` is dropped: the keys of its range and its augmentation. -/
def LayerNode.dropEvents (n : LayerNode K A) : List (Event K A) :=
  n.2.1.1.toList.map .dropKey ++ n.2.1.2.toList.map .dropKey ++ [.dropAug n.2.2]

/-- The leaf loop of `bulk_load`, src/tree/bulk_load.rs:23-50. -/
def bulkLeavesL : Nat → Store K V A → Option Nat → List (K × V) →
    Logged K A (Store K V A × List (LayerNode K A) × Nat)
  | 0, _, _, _ => (.error .fuel : Res _)
  | fuel + 1, s, prevId, data => do
    let chunk := data.take leafN
    if chunk.isEmpty then
      return (s, [], 0)
    else
      let (s, leafId) := s.reserveLeaf
      let leaf : Leaf K V := { data := chunk, prev := prevId, next := none }
      let s ← linkFromPrev s prevId leafId
      let range ← leaf.keyRangeL
      let a ← leafAugL leaf
      let s ← s.assignLeaf leafId leaf
      let (s, rest, n) ← bulkLeavesL fuel s (some leafId) (data.drop leafN)
      return (s, (.leaf leafId, range, a) :: rest, leaf.len + n)

/-- One iteration of the loop of `build_inner_layer`, src/tree/bulk_load.rs:79-99. The start and the
end of the range are clones (81-82), so are the keys (84-86) and the augmentations (88) of the new
node; `A::clone` makes an augmentation. -/
def buildInnerL (s : Store K V A) (childs : List (LayerNode K A)) :
    Logged K A (Store K V A × LayerNode K A) := do
  let startKey := (← (match childs with | c :: _ => .ok c | [] => .error .panic :
    Res (LayerNode K A))).2.1.1
  let endKey := (← (match childs.getLast? with | some c => .ok c | none => .error .panic :
    Res (LayerNode K A))).2.1.1
  Logged.emit (startKey.toList.map .cloneKey ++ endKey.toList.map .cloneKey)
  let keys ← ((childs.drop 1).mapM expectStartKey : Res _)
  let augs := childs.map (·.2.2)
  Logged.emit (keys.map .cloneKey ++ augs.map .makeAug)
  let inner ← Inner.newFromIter keys (childs.map (·.1)) augs
  let aug ← innerAugL V inner
  let (s, id) := s.addInner inner
  return (s, (.inner id, (startKey, endKey), aug))

/-- The loop of `build_inner_layer` over the chunks, src/tree/bulk_load.rs:79-99. -/
def buildLayerL (s : Store K V A) :
    List (List (LayerNode K A)) → Logged K A (Store K V A × List (LayerNode K A))
  | [] => return (s, [])
  | c :: cs => do
    let (s, n) ← buildInnerL s c
    let (s, ns) ← buildLayerL s cs
    return (s, n :: ns)

/-- `build_inner_layer`, src/tree/bulk_load.rs:59-102: the vector it is given is dropped at its end. -/
def buildInnerLayerL : Nat → Store K V A → List (LayerNode K A) → Logged K A (Store K V A × NodeId)
  | 0, _, _ => (.error .fuel : Res _)
  | fuel + 1, s, nodes =>
    match nodes with
    | [] => (.error .panic : Res _)
    | [n] => do
      Logged.emit n.dropEvents
      return (s, n.1)
    | _ => do
      let (s, nodes') ← buildLayerL s (chunks (innerN + 1) nodes.length nodes)
      let r ← buildInnerLayerL fuel s nodes'
      Logged.emit (nodes.flatMap LayerNode.dropEvents)
      return r

/-- `new_from_parts`, src/tree/mod.rs:113-133. -/
def Tree.newFromPartsL (s : Store K V A) (root : NodeId) (len : Nat) : Logged K A (Tree K V A) := do
  let a ← (if 0 < len then newAugmentationL s root else do
    Logged.emit [.makeAug (Augmentation.dflt K V)]
    return Augmentation.dflt K V : Logged K A A)
  return { root := root, rootAug := a, len := len, store := s, st := {} }

/-- `bulk_load`, src/tree/bulk_load.rs:8-55. The iterator that removes duplicates runs while the leaves
are filled; its events are listed first. -/
def Tree.bulkLoadL (eq : Nat → K → K → Bool) (data : List (K × V)) : Logged K A (Tree K V A) :=
  if data.isEmpty then do
    Logged.emit [.makeAug (Augmentation.dflt K V)]
    return Tree.new
  else do
    let (items, gone) := dedupU eq 0 data
    Logged.emit (gone.map (fun e => .dropKey e.1))
    let (s, nodes, count) ← bulkLeavesL (items.length + 1) (Store.empty : Store K V A) none items
    let (s, root) ← buildInnerLayerL (nodes.length + 1) s nodes
    Tree.newFromPartsL s root count

end
end Bpt
