import Verif.Model.Tree

/-!
# Bulk loading (src/tree/bulk_load.rs) and `FromIterator` (src/map.rs:300-306)
-/

namespace Bpt
variable {K V A : Type}

/-- `DeDupKeepLast` over the whole input, src/tree/bulk_load.rs:106-136, with
`same_bucket = |l, r| l.0 == r.0`: of consecutive items with equal keys the last one is kept. -/
def dedupKeepLast [DecidableEq K] : List (K × V) → List (K × V)
  | [] => []
  | [x] => [x]
  | x :: y :: rest =>
    if x.1 = y.1 then dedupKeepLast (y :: rest) else x :: dedupKeepLast (y :: rest)

/-- An entry of the `nodes` vector, src/tree/bulk_load.rs:19: id, key range, augmentation. -/
abbrev LayerNode (K A : Type) := NodeId × (Option K × Option K) × A

section
variable [Augmentation K V A]

/-- The previous leaf's `next` is set to the new leaf, src/tree/bulk_load.rs:35-38. -/
def linkFromPrev (s : Store K V A) (prevId : Option Nat) (leafId : Nat) : Res (Store K V A) :=
  match prevId with
  | some p => do
    let pl ← s.getLeaf p
    return s.setLeaf p (pl.setNext (some leafId))
  | none => return s

/-- The leaf loop of `bulk_load`, src/tree/bulk_load.rs:23-50. `set_data` takes up to 64 items
(leaf_node.rs:156-168). `fuel` bounds the number of iterations. Returns the store, the layer and the
item count. -/
def bulkLeaves : Nat → Store K V A → Option Nat → List (K × V) →
    Res (Store K V A × List (LayerNode K A) × Nat)
  | 0, _, _, _ => .error .fuel
  | fuel + 1, s, prevId, data => do
    let chunk := data.take leafN
    if chunk.isEmpty then
      return (s, [], 0)
    else
      let (s, leafId) := s.reserveLeaf
      let leaf : Leaf K V := { data := chunk, prev := prevId, next := none }
      -- fix the prev leaf's next pointer
      let s ← linkFromPrev s prevId leafId
      let range ← leaf.keyRange
      let s ← s.assignLeaf leafId leaf
      let (s, rest, n) ← bulkLeaves fuel s (some leafId) (data.drop leafN)
      return (s, (.leaf leafId, range, leafAug leaf) :: rest, leaf.len + n)

/-- `slice::chunks(n)`: consecutive pieces of length `n`, the last one possibly shorter. -/
def chunks {α : Type} (n : Nat) : Nat → List α → List (List α)
  | 0, _ => []
  | fuel + 1, l => if l.isEmpty then [] else l.take n :: chunks n fuel (l.drop n)

/-- `start_key.clone().expect("the first leaf is skipped")`, src/tree/bulk_load.rs:83-85. -/
def expectStartKey (c : LayerNode K A) : Res K :=
  match c.2.1.1 with
  | some k => .ok k
  | none => .error .panic

/-- One iteration of the loop of `build_inner_layer`, src/tree/bulk_load.rs:79-99. -/
def buildInner (s : Store K V A) (childs : List (LayerNode K A)) :
    Res (Store K V A × LayerNode K A) := do
  let startKey := (← (match childs with | c :: _ => .ok c | [] => .error .panic :
    Res (LayerNode K A))).2.1.1
  let endKey := (← (match childs.getLast? with | some c => .ok c | none => .error .panic :
    Res (LayerNode K A))).2.1.1
  let keys ← (childs.drop 1).mapM expectStartKey
  let inner ← Inner.newFromIter keys (childs.map (·.1)) (childs.map (·.2.2))
  let aug := innerAug V inner
  let (s, id) := s.addInner inner
  return (s, (.inner id, (startKey, endKey), aug))

/-- The loop of `build_inner_layer` over the chunks, src/tree/bulk_load.rs:79-99. -/
def buildLayer (s : Store K V A) :
    List (List (LayerNode K A)) → Res (Store K V A × List (LayerNode K A))
  | [] => return (s, [])
  | c :: cs => do
    let (s, n) ← buildInner s c
    let (s, ns) ← buildLayer s cs
    return (s, n :: ns)

/-- `build_inner_layer`, src/tree/bulk_load.rs:59-102; `fuel` bounds the number of layers. -/
def buildInnerLayer : Nat → Store K V A → List (LayerNode K A) → Res (Store K V A × NodeId)
  | 0, _, _ => .error .fuel
  | fuel + 1, s, nodes =>
    match nodes with
    | [] => .error .panic
    | [n] => return (s, n.1)
    | _ => do
      let (s, nodes') ← buildLayer s (chunks (innerN + 1) nodes.length nodes)
      buildInnerLayer fuel s nodes'

/-- `new_from_parts`, src/tree/mod.rs:113-133. -/
def Tree.newFromParts (s : Store K V A) (root : NodeId) (len : Nat) : Res (Tree K V A) := do
  let a ← (if 0 < len then newAugmentationForId s root else return Augmentation.dflt K V : Res A)
  return { root := root, rootAug := a, len := len, store := s, st := {} }

/-- `bulk_load`, src/tree/bulk_load.rs:8-55. -/
def Tree.bulkLoad [DecidableEq K] (data : List (K × V)) : Res (Tree K V A) :=
  if data.isEmpty then return Tree.new else do
    let items := dedupKeepLast data
    let (s, nodes, count) ← bulkLeaves (items.length + 1) (Store.empty : Store K V A) none items
    let (s, root) ← buildInnerLayer (nodes.length + 1) s nodes
    Tree.newFromParts s root count

/-- `FromIterator for BPlusTreeMap`, src/map.rs:300-306: stable sort by key, then `bulk_load`.
`slice::sort_by` is the stable `List.mergeSort`. -/
def Tree.fromIter [LinearOrder K] (items : List (K × V)) : Res (Tree K V A) :=
  Tree.bulkLoad (items.mergeSort (fun a b => decide (a.1 ≤ b.1)))

end
end Bpt
