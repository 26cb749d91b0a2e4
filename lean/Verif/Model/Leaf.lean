import Verif.Model.Basic

/-!
# Leaf nodes (src/tree/leaf_node.rs)

A leaf is modelled by the list of its initialised items (the slots `..size` of the two parallel
arrays `slot_key`, `slot_value`) and the two links. `size` is the length of the list.
-/

namespace Bpt

/-- `LeafNode`, src/tree/leaf_node.rs:12-20. -/
structure Leaf (K V : Type) where
  data : List (K × V)
  prev : Option Nat
  next : Option Nat
deriving DecidableEq

namespace Leaf
variable {K V : Type}

/-- `LeafNode::new`, src/tree/leaf_node.rs:58-68. -/
def empty : Leaf K V := ⟨[], none, none⟩

/-- `len`, src/tree/leaf_node.rs:70-72. -/
def len (l : Leaf K V) : Nat := l.data.length

/-- `is_full`, src/tree/leaf_node.rs:98-100. -/
def isFull (l : Leaf K V) : Bool := l.len == leafN

/-- `able_to_lend`, src/tree/leaf_node.rs:102-104. -/
def ableToLend (l : Leaf K V) : Bool := decide (minN < l.len)

/-- `keys`, src/tree/leaf_node.rs:527-539. -/
def keys (l : Leaf K V) : List K := l.data.map (·.1)

/-- `values`, src/tree/leaf_node.rs:541-553. -/
def values (l : Leaf K V) : List V := l.data.map (·.2)

/-- `data_at`, src/tree/leaf_node.rs:170-177: unchecked. -/
def dataAt (l : Leaf K V) (slot : Nat) : Res (K × V) := readAt l.data slot

/-- `try_data_at`, src/tree/leaf_node.rs:184-194: checked. -/
def tryDataAt (l : Leaf K V) (idx : Nat) : Option (K × V) := l.data[idx]?

/-- `set_prev`, src/tree/leaf_node.rs:140-142. -/
def setPrev (l : Leaf K V) (p : Option Nat) : Leaf K V := { l with prev := p }

/-- `set_next`, src/tree/leaf_node.rs:148-150. -/
def setNext (l : Leaf K V) (n : Option Nat) : Leaf K V := { l with next := n }

/-- `locate_slot`, src/tree/leaf_node.rs:311-317. -/
def locateSlot [LinearOrder K] (l : Leaf K V) (k : K) : Slot := bsearch l.keys k

/-- `locate_slot_with_value`, src/tree/leaf_node.rs:320-341. -/
def locateSlotWithValue [LinearOrder K] (l : Leaf K V) (k : K) : Res (Nat × Option V) :=
  match l.locateSlot k with
  | .found i => do
    let kv ← l.dataAt i
    return (i, some kv.2)
  | .vacant i => return (i, none)

/-- `in_range`, src/tree/leaf_node.rs:106-123. The keys are read unchecked, so an empty leaf with a
neighbour would be undefined behaviour; `self.len() - 1` on an empty leaf is an underflow. -/
def inRange [LinearOrder K] (l : Leaf K V) (k : K) : Res Bool := do
  let isLtStart ← (match l.prev with
    | some _ => do
      let kv ← l.dataAt 0
      return decide (k < kv.1)
    | none => return false : Res Bool)
  if isLtStart then
    return false
  let isGtEnd ← (match l.next with
    | some _ => do
      if l.len = 0 then .error .panic
      let kv ← l.dataAt (l.len - 1)
      return decide (kv.1 < k)
    | none => return false : Res Bool)
  return !isGtEnd

/-- `key_range`, src/tree/leaf_node.rs:125-134. Only the start component is used by `bulk_load`
(the end component is dropped there); both are kept. -/
def keyRange (l : Leaf K V) : Res (Option K × Option K) := do
  if l.len = 0 then .error .panic
  let start ← (match l.prev with
    | some _ => do
      let kv ← l.dataAt 0
      return some kv.1
    | none => return none : Res (Option K))
  let stop ← (match l.next with
    | some _ => do
      let kv ← l.dataAt (l.len - 1)
      return some kv.1
    | none => return none : Res (Option K))
  return (start, stop)

/-- `LeafUpsertResult`, src/tree/leaf_node.rs (end of file). -/
inductive UpsertResult (K V : Type) where
  | inserted
  | updated (v : V)
  | isFull (idx : Nat) (k : K) (v : V)

/-- `try_upsert`, src/tree/leaf_node.rs:213-234. On an update the stored key is kept. -/
def tryUpsert [LinearOrder K] (l : Leaf K V) (k : K) (v : V) : Res (Leaf K V × UpsertResult K V) :=
  match l.locateSlot k with
  | .found idx => do
    let kv ← l.dataAt idx
    return ({ l with data := l.data.set idx (kv.1, v) }, .updated kv.2)
  | .vacant idx =>
    if !l.isFull then do
      let d ← sliceInsert l.data idx (k, v)
      return ({ l with data := d }, .inserted)
    else
      return (l, .isFull idx k v)

/-- `split_new_leaf`, src/tree/leaf_node.rs:236-294. Returns (self, new node). The moves copy the
slots `32..64`; if the leaf were not full the new node would claim uninitialised slots, which the
list-level model reports as `ub` at once. -/
def splitNewLeaf (l : Leaf K V) (insertIdx : Nat) (item : K × V) (newLeafId selfLeafId : Nat) :
    Res (Leaf K V × Leaf K V) :=
  if l.len ≠ leafN then .error .ub else
  let right := l.data.drop splitOrigin
  let left := l.data.take splitOrigin
  if insertIdx < splitOrigin then do
    let left' ← sliceInsert left insertIdx item
    return ({ l with data := left', next := some newLeafId },
            { data := right, prev := some selfLeafId, next := l.next })
  else do
    let right' ← sliceInsert right (insertIdx - splitOrigin) item
    return ({ l with data := left, next := some newLeafId },
            { data := right', prev := some selfLeafId, next := l.next })

/-- `LeafDeleteResult`, src/tree/leaf_node.rs (end of file). -/
inductive DeleteResult (K V : Type) where
  | done (kv : K × V)
  | underSize (idx : Nat)

/-- `delete_at`, src/tree/leaf_node.rs:517-525. -/
def deleteAt (l : Leaf K V) (idx : Nat) : Res ((K × V) × Leaf K V) := do
  let (kv, d) ← sliceRemove l.data idx
  return (kv, { l with data := d })

/-- `try_delete_at`, src/tree/leaf_node.rs:296-308. -/
def tryDeleteAt (l : Leaf K V) (idx : Nat) : Res (Leaf K V × DeleteResult K V) :=
  if l.ableToLend then do
    let (kv, d) ← sliceRemove l.data idx
    return ({ l with data := d }, .done kv)
  else
    return (l, .underSize idx)

/-- `pop`, src/tree/leaf_node.rs:367-377. -/
def pop (l : Leaf K V) : Res ((K × V) × Leaf K V) :=
  if !l.ableToLend then .error .panic else do
    let (kv, d) ← sliceRemove l.data (l.len - 1)
    return (kv, { l with data := d })

/-- `pop_front`, src/tree/leaf_node.rs:379-388. -/
def popFront (l : Leaf K V) : Res ((K × V) × Leaf K V) :=
  if !l.ableToLend then .error .panic else do
    let (kv, d) ← sliceRemove l.data 0
    return (kv, { l with data := d })

/-- `delete_with_push`, src/tree/leaf_node.rs:391-402. -/
def deleteWithPush (l : Leaf K V) (idx : Nat) (item : K × V) : Res ((K × V) × Leaf K V) := do
  let (kv, d) ← sliceRemove l.data idx
  return (kv, { l with data := d ++ [item] })

/-- `delete_with_push_front`, src/tree/leaf_node.rs:405-415: take slot `idx` out, shift `..idx`
right by one, write `item` at slot 0. `slot_key[idx]` is a checked array index (64 slots). -/
def deleteWithPushFront (l : Leaf K V) (idx : Nat) (item : K × V) : Res ((K × V) × Leaf K V) :=
  if leafN ≤ idx then .error .panic else do
    let kv ← readAt l.data idx
    return (kv, { l with data := item :: l.data.take idx ++ l.data.drop (idx + 1) })

/-- `extend`, src/tree/leaf_node.rs:503-515: unchecked slice of the 64-slot array. -/
def extend (l : Leaf K V) (xs : List (K × V)) : Res (Leaf K V) :=
  if l.len + xs.length ≤ leafN then .ok { l with data := l.data ++ xs } else .error .ub

/-- `merge_right_delete_first`, src/tree/leaf_node.rs:418-469. Returns the deleted item and the
extended left leaf; `right` is emptied (`right.size = 0`) and then dropped by the caller. -/
def mergeRightDeleteFirst (l : Leaf K V) (deleteIdx : Nat) (right : Leaf K V) :
    Res ((K × V) × Leaf K V) := do
  let kv ← readAt right.data deleteIdx
  let l ← l.extend (right.data.take deleteIdx)
  let l ← l.extend (right.data.drop (deleteIdx + 1))
  return (kv, { l with next := right.next })

/-- `merge_right`, src/tree/leaf_node.rs:472-488. -/
def mergeRight (l : Leaf K V) (right : Leaf K V) : Res (Leaf K V) := do
  let l ← l.extend right.data
  return { l with next := right.next }

end Leaf
end Bpt
