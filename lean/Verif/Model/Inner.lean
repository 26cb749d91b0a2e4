import Verif.Model.Basic

/-!
# Inner nodes (src/tree/inner_node.rs)

An inner node is modelled by the lists of its initialised keys (slots `..size`), children and child
augmentations (slots `..size + 1`).
-/

namespace Bpt

/-- `InnerNode`, src/tree/inner_node.rs:16-23. -/
structure Inner (K A : Type) where
  keys : List K
  childs : List NodeId
  augs : List A
deriving DecidableEq

namespace Inner
variable {K A : Type}

/-- `len`, src/tree/inner_node.rs:74-76. -/
def len (n : Inner K A) : Nat := n.keys.length

/-- `is_empty`, src/tree/inner_node.rs:79-81. -/
def isEmpty (n : Inner K A) : Bool := n.len == 0

/-- `able_to_lend`, src/tree/inner_node.rs:104-106. -/
def ableToLend (n : Inner K A) : Bool := decide (minN < n.len)

/-- `is_full`, src/tree/inner_node.rs:109-111. -/
def isFull (n : Inner K A) : Bool := n.len == innerN

/-- `new_from_iter`, src/tree/inner_node.rs:132-163: checked array writes (64 keys, 65 children,
65 augmentations) and `assert!(key_size + 1 == child_size)`. That the number of augmentations equals
the number of children is not checked by the code. -/
def newFromIter (keys : List K) (childs : List NodeId) (augs : List A) : Res (Inner K A) :=
  if keys.length ≤ innerN ∧ childs.length ≤ innerN + 1 ∧ augs.length ≤ innerN + 1 then
    if keys.length + 1 = childs.length then .ok ⟨keys, childs, augs⟩ else .error .panic
  else .error .panic

/-- `set_augmentation`, src/tree/inner_node.rs:195-201: unchecked, the old value is dropped. -/
def setAugmentation (n : Inner K A) (idx : Nat) (a : A) : Res (Inner K A) :=
  if idx < n.augs.length then .ok { n with augs := n.augs.set idx a } else .error .ub

/-- `child_id`, src/tree/inner_node.rs:564-566: unchecked. -/
def childId (n : Inner K A) (idx : Nat) : Res NodeId := readAt n.childs idx

/-- `locate_child`, src/tree/inner_node.rs:205-222. -/
def locateChild [LinearOrder K] (n : Inner K A) (k : K) : Res (Nat × NodeId) :=
  match bsearch n.keys k with
  | .vacant idx => do
    let c ← n.childId idx
    return (idx, c)
  | .found idx => do
    let c ← n.childId (idx + 1)
    return (idx + 1, c)

/-- `insert_at`, src/tree/inner_node.rs:225-251. -/
def insertAt (n : Inner K A) (slot : Nat) (key : K) (rightChild : NodeId) (rightAug : A) :
    Res (Inner K A) :=
  if ¬ slot ≤ n.len ∨ n.isFull then .error .panic else do
    let ks ← sliceInsert n.keys slot key
    let cs ← sliceInsert n.childs (slot + 1) rightChild
    let as ← sliceInsert n.augs (slot + 1) rightAug
    return ⟨ks, cs, as⟩

/-- `split`, src/tree/inner_node.rs:257-397. Returns (promoted key, self, new node). `self.size` is
set to 32 first, so slots of `self` beyond it (stale copies of moved elements) are not part of the
list-level result. A child index beyond the array makes the unchecked slices go out of range. -/
def split (n : Inner K A) (childIdx : Nat) (k : K) (newChild : NodeId) (newAug : A) :
    Res (K × Inner K A × Inner K A) :=
  if !n.isFull then .error .panic else
  if innerN < childIdx then .error .ub else
  if childIdx < splitOrigin then do
    let newKey ← readAt n.keys (splitOrigin - 1)
    let ks ← sliceInsert (n.keys.take (splitOrigin - 1)) childIdx k
    let cs ← sliceInsert (n.childs.take splitOrigin) (childIdx + 1) newChild
    let as ← sliceInsert (n.augs.take splitOrigin) (childIdx + 1) newAug
    return (newKey, ⟨ks, cs, as⟩,
      ⟨n.keys.drop splitOrigin, n.childs.drop splitOrigin, n.augs.drop splitOrigin⟩)
  else if splitOrigin < childIdx then do
    let newKey ← readAt n.keys splitOrigin
    let newSlotIdx := childIdx - 1 - splitOrigin
    let newChildIdx := childIdx - splitOrigin
    let ks := (n.keys.drop (splitOrigin + 1)).take newSlotIdx
      ++ k :: n.keys.drop (splitOrigin + newSlotIdx + 1)
    let cs := (n.childs.drop (splitOrigin + 1)).take newChildIdx
      ++ newChild :: n.childs.drop (splitOrigin + 1 + newChildIdx)
    let as := (n.augs.drop (splitOrigin + 1)).take newChildIdx
      ++ newAug :: n.augs.drop (splitOrigin + 1 + newChildIdx)
    return (newKey,
      ⟨n.keys.take splitOrigin, n.childs.take (splitOrigin + 1), n.augs.take (splitOrigin + 1)⟩,
      ⟨ks, cs, as⟩)
  else
    return (k,
      ⟨n.keys.take splitOrigin, n.childs.take (splitOrigin + 1), n.augs.take (splitOrigin + 1)⟩,
      ⟨n.keys.drop splitOrigin, newChild :: n.childs.drop (splitOrigin + 1),
        newAug :: n.augs.drop (splitOrigin + 1)⟩)

/-- `remove_slot_with_right`, src/tree/inner_node.rs:401-419. Returns (is it still at least of the
minimum size, removed key, node); `true` is `InnerMergeResult::Done`. -/
def removeSlotWithRight (n : Inner K A) (slot : Nat) : Res (Bool × K × Inner K A) := do
  let (k, ks) ← sliceRemove n.keys slot
  let (_, cs) ← sliceRemove n.childs (slot + 1)
  let (_, as) ← sliceRemove n.augs (slot + 1)
  return (decide (minN ≤ ks.length), k, ⟨ks, cs, as⟩)

/-- `merge_next`, src/tree/inner_node.rs:421-446. -/
def mergeNext (n : Inner K A) (slotKey : K) (right : Inner K A) : Res (Inner K A) :=
  if innerN ≤ n.len then .error .ub else
  if ¬ n.len + 1 + right.len ≤ innerN then .error .panic else
  .ok ⟨n.keys ++ slotKey :: right.keys, n.childs ++ right.childs, n.augs ++ right.augs⟩

/-- `pop`, src/tree/inner_node.rs:449-470: `size - 1` underflows on an empty node. -/
def pop (n : Inner K A) : Res ((K × NodeId × A) × Inner K A) :=
  if n.len = 0 then .error .panic else do
    let k ← readAt n.keys (n.len - 1)
    let c ← readAt n.childs n.len
    let a ← readAt n.augs n.len
    return ((k, c, a), ⟨n.keys.take (n.len - 1), n.childs.take n.len, n.augs.take n.len⟩)

/-- `pop_front`, src/tree/inner_node.rs:472-484. -/
def popFront (n : Inner K A) : Res ((K × NodeId × A) × Inner K A) := do
  let (k, ks) ← sliceRemove n.keys 0
  let (c, cs) ← sliceRemove n.childs 0
  let (a, as) ← sliceRemove n.augs 0
  return ((k, c, a), ⟨ks, cs, as⟩)

/-- `push`, src/tree/inner_node.rs:486-493: unchecked writes at `size` / `size + 1`. -/
def push (n : Inner K A) (k : K) (c : NodeId) (a : A) : Res (Inner K A) :=
  if n.len < innerN then .ok ⟨n.keys ++ [k], n.childs ++ [c], n.augs ++ [a]⟩ else .error .ub

/-- `push_front`, src/tree/inner_node.rs:495-506: unchecked slices `0..size + 1` / `0..size + 2`. -/
def pushFront (n : Inner K A) (k : K) (c : NodeId) (a : A) : Res (Inner K A) :=
  if n.len < innerN then .ok ⟨k :: n.keys, c :: n.childs, a :: n.augs⟩ else .error .ub

/-- `set_key`, src/tree/inner_node.rs:558-562: unchecked; returns the old key. -/
def setKey (n : Inner K A) (idx : Nat) (key : K) : Res (K × Inner K A) := do
  let old ← readAt n.keys idx
  return (old, { n with keys := n.keys.set idx key })

end Inner
end Bpt
