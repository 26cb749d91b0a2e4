import Verif.Model.Leaf
import Verif.Model.Inner

/-!
# Slot-level nodes

Here a node is what it is in memory: a `size` and fixed arrays of `MaybeUninit` slots. A slot is
`some x` when it holds an initialised value that has not been moved out, `none` otherwise. Moving a
value out (`assume_init_read`, `move_to_slice`, the shift in `slice_remove`) empties its slot, so that
every value lives in one place. This is stricter than the machine: the bits stay in memory, and
reading a moved-out slot (`ub` here) would create a second owner there.

Errors: `ub` is an unchecked access outside the array or an `assume_init_*` of an empty slot; `panic`
is a failed `assert!`, `debug_assert!`, checked index or subtraction.

`Verif/Props/Slots.lean` proves that these operations do to the initialised prefix what the list-level
operations of `Verif/Model/Leaf.lean` and `Verif/Model/Inner.lean` say.
-/

namespace Bpt

/-- An array `[MaybeUninit<T>; N]`. -/
abbrev Slots (α : Type) := List (Option α)

namespace Slots
variable {α : Type}

/-- An uninitialised array (`LeafNode::new`, leaf_node.rs:58-68; `InnerNode::empty`,
inner_node.rs:114-120). -/
def uninit (n : Nat) : Slots α := List.replicate n none

/-- `get_unchecked(i)` / `get_unchecked_mut(i)` then `assume_init_ref` (leaf_node.rs:170-177,
inner_node.rs:554-566). -/
def read (a : Slots α) (i : Nat) : Res α :=
  match a[i]? with
  | some (some x) => .ok x
  | _ => .error .ub

/-- `assume_init_read` / `mem::replace(_, MaybeUninit::uninit()).assume_init()`: the value moves out. -/
def take (a : Slots α) (i : Nat) : Res (α × Slots α) := do
  let x ← a.read i
  return (x, a.set i none)

/-- `*get_unchecked_mut(i) = MaybeUninit::new(x)`: no check of what the slot held. -/
def write (a : Slots α) (i : Nat) (x : α) : Res (Slots α) :=
  if i < a.length then .ok (a.set i (some x)) else .error .ub

/-- `ptr::copy(a + src, a + dst, n)` inside one array (overlap allowed). -/
def copyWithin (a : Slots α) (src dst n : Nat) : Res (Slots α) :=
  if src + n ≤ a.length ∧ dst + n ≤ a.length then
    .ok (List.take dst a ++ List.take n (List.drop src a) ++ List.drop (dst + n) a)
  else .error .ub

/-- `slice_insert(&mut a[..len], idx, val)`, src/tree/slice_utils.rs:10-20; the slice is taken by
`get_unchecked_mut(..len)`. -/
def insert (a : Slots α) (len idx : Nat) (val : α) : Res (Slots α) :=
  if ¬ len ≤ a.length then .error .ub else
  if ¬ idx < len then .error .panic else do
  let a ← (if idx + 1 < len then a.copyWithin idx (idx + 1) (len - idx - 1) else return a)
  a.write idx val

/-- `slice_remove(&mut a[..len], idx)`, src/tree/slice_utils.rs:27-36. The last slot of the slice is
left uninitialised, as its comment says. -/
def remove (a : Slots α) (len idx : Nat) : Res (α × Slots α) :=
  if ¬ len ≤ a.length then .error .ub else
  if ¬ idx < len then .error .panic else do
  let (ret, a) ← a.take idx
  let a ← a.copyWithin (idx + 1) idx (len - idx - 1)
  return (ret, a.set (len - 1) none)

/-- `move_to_slice(&mut src[slo..shi], &mut dst[dlo..dhi])`, src/tree/slice_utils.rs:41-46. Returns
both arrays. -/
def moveTo (src : Slots α) (slo shi : Nat) (dst : Slots α) (dlo dhi : Nat) :
    Res (Slots α × Slots α) :=
  if ¬ (slo ≤ shi ∧ shi ≤ src.length ∧ dlo ≤ dhi ∧ dhi ≤ dst.length) then .error .ub else
  if ¬ shi - slo = dhi - dlo then .error .panic else
  .ok (List.take slo src ++ uninit (shi - slo) ++ List.drop shi src,
    List.take dlo dst ++ List.take (shi - slo) (List.drop slo src) ++ List.drop dhi dst)

/-- `assume_init_drop` of the slots `..n`: the values dropped. -/
def dropPrefix (a : Slots α) (n : Nat) : Res (List α) :=
  (List.range n).mapM (fun i => a.read i)

/-- The loops of the `Clone` implementations (leaf_node.rs:30-35, 40-45; inner_node.rs:45-50, 56-61):
clone the slots `..n` into an uninitialised array of length `cap`. -/
def clonePrefix (a : Slots α) (n cap : Nat) : Res (Slots α) :=
  (List.range n).foldlM (fun (b : Slots α) i => do
    let x ← a.read i
    b.write i x) (uninit cap)

end Slots

/-! ## Leaves -/

/-- `LeafNode`, src/tree/leaf_node.rs:12-20. -/
structure LeafS (K V : Type) where
  size : Nat
  ks : Slots K
  vs : Slots V
  prev : Option Nat
  next : Option Nat

namespace LeafS
variable {K V : Type}

/-- `LeafNode::new`, src/tree/leaf_node.rs:58-68. -/
def new : LeafS K V := ⟨0, Slots.uninit leafN, Slots.uninit leafN, none, none⟩

/-- `set_data`, src/tree/leaf_node.rs:156-168: at most `N` items; `self.size` is incremented from
its current value while the slots are written from 0 (it is only called on fresh leaves). -/
def setData (n : LeafS K V) (data : List (K × V)) : Res (LeafS K V) :=
  (data.take leafN).zipIdx.foldlM (fun n (kv, i) => do
    let ks ← n.ks.write i kv.1
    let vs ← n.vs.write i kv.2
    return { n with ks, vs, size := n.size + 1 }) n

/-- `data_at`, src/tree/leaf_node.rs:170-177. -/
def dataAt (n : LeafS K V) (slot : Nat) : Res (K × V) := do
  let k ← n.ks.read slot
  let v ← n.vs.read slot
  return (k, v)

/-- `try_data_at`, src/tree/leaf_node.rs:184-194. -/
def tryDataAt (n : LeafS K V) (idx : Nat) : Res (Option (K × V)) :=
  if n.size ≤ idx then return none else do
    let kv ← n.dataAt idx
    return some kv

/-- `keys`, src/tree/leaf_node.rs:527-539: the slots `..size` reinterpreted as initialised. -/
def keys (n : LeafS K V) : Res (List K) :=
  if n.size ≤ n.ks.length then (List.range n.size).mapM (fun i => n.ks.read i) else .error .ub

/-- `values`, src/tree/leaf_node.rs:541-553. -/
def values (n : LeafS K V) : Res (List V) :=
  if n.size ≤ n.vs.length then (List.range n.size).mapM (fun i => n.vs.read i) else .error .ub

/-- `locate_slot`, src/tree/leaf_node.rs:311-317. -/
def locateSlot [LinearOrder K] (n : LeafS K V) (k : K) : Res Slot := do
  let ks ← n.keys
  return bsearch ks k

/-- `try_upsert`, src/tree/leaf_node.rs:213-234. -/
def tryUpsert [LinearOrder K] (n : LeafS K V) (k : K) (v : V) :
    Res (LeafS K V × Leaf.UpsertResult K V) := do
  match ← n.locateSlot k with
  | .found idx =>
    let prevV ← n.vs.read idx
    let vs ← n.vs.write idx v
    return ({ n with vs }, .updated prevV)
  | .vacant idx =>
    if n.size ≠ leafN then
      let newLen := n.size + 1
      let ks ← n.ks.insert newLen idx k
      let vs ← n.vs.insert newLen idx v
      return ({ n with ks, vs, size := newLen }, .inserted)
    else
      return (n, .isFull idx k v)

/-- `split_new_leaf`, src/tree/leaf_node.rs:236-294. -/
def splitNewLeaf (n : LeafS K V) (insertIdx : Nat) (item : K × V) (newLeafId selfLeafId : Nat) :
    Res (LeafS K V × LeafS K V) := do
  let splitNew := leafN - splitOrigin
  let m : LeafS K V := { new with prev := some selfLeafId, next := n.next }
  let (ks, mks) ← n.ks.moveTo splitOrigin leafN m.ks 0 splitNew
  let (vs, mvs) ← n.vs.moveTo splitOrigin leafN m.vs 0 splitNew
  if insertIdx < splitOrigin then
    let newSize := splitOrigin + 1
    let ks ← ks.insert newSize insertIdx item.1
    let vs ← vs.insert newSize insertIdx item.2
    return ({ n with ks, vs, size := newSize, next := some newLeafId },
      { m with ks := mks, vs := mvs, size := splitNew })
  else
    let insertIdx := insertIdx - splitOrigin
    let mks ← mks.insert (splitNew + 1) insertIdx item.1
    let mvs ← mvs.insert (splitNew + 1) insertIdx item.2
    return ({ n with ks, vs, size := splitOrigin, next := some newLeafId },
      { m with ks := mks, vs := mvs, size := splitNew + 1 })

/-- The two `slice_remove` calls shared by `delete_at`, `try_delete_at`, `pop`, `pop_front` and
`delete_with_push`. -/
def removeItem (n : LeafS K V) (idx : Nat) : Res ((K × V) × Slots K × Slots V) := do
  let (k, ks) ← n.ks.remove n.size idx
  let (v, vs) ← n.vs.remove n.size idx
  return ((k, v), ks, vs)

/-- `delete_at`, src/tree/leaf_node.rs:517-525. -/
def deleteAt (n : LeafS K V) (idx : Nat) : Res ((K × V) × LeafS K V) := do
  let (kv, ks, vs) ← n.removeItem idx
  return (kv, { n with ks, vs, size := n.size - 1 })

/-- `try_delete_at`, src/tree/leaf_node.rs:296-308. -/
def tryDeleteAt (n : LeafS K V) (idx : Nat) : Res (LeafS K V × Leaf.DeleteResult K V) :=
  if minN < n.size then do
    let (kv, ks, vs) ← n.removeItem idx
    return ({ n with ks, vs, size := n.size - 1 }, .done kv)
  else
    return (n, .underSize idx)

/-- `pop`, src/tree/leaf_node.rs:367-377. -/
def pop (n : LeafS K V) : Res ((K × V) × LeafS K V) :=
  if ¬ minN < n.size then .error .panic else do
    let (kv, ks, vs) ← n.removeItem (n.size - 1)
    return (kv, { n with ks, vs, size := n.size - 1 })

/-- `pop_front`, src/tree/leaf_node.rs:379-388. -/
def popFront (n : LeafS K V) : Res ((K × V) × LeafS K V) :=
  if ¬ minN < n.size then .error .panic else do
    let (kv, ks, vs) ← n.removeItem 0
    return (kv, { n with ks, vs, size := n.size - 1 })

/-- `delete_with_push`, src/tree/leaf_node.rs:391-402. -/
def deleteWithPush (n : LeafS K V) (idx : Nat) (item : K × V) : Res ((K × V) × LeafS K V) := do
  let (kv, ks, vs) ← n.removeItem idx
  if n.size = 0 then .error .panic
  let ks ← ks.write (n.size - 1) item.1
  let vs ← vs.write (n.size - 1) item.2
  return (kv, { n with ks, vs })

/-- `delete_with_push_front`, src/tree/leaf_node.rs:405-415: `slot_key[idx]` is a checked index. -/
def deleteWithPushFront (n : LeafS K V) (idx : Nat) (item : K × V) : Res ((K × V) × LeafS K V) :=
  if ¬ idx < leafN then .error .panic else do
  let (k, ks) ← n.ks.take idx
  let (v, vs) ← n.vs.take idx
  let ks ← ks.insert (idx + 1) 0 item.1
  let vs ← vs.insert (idx + 1) 0 item.2
  return ((k, v), { n with ks, vs })

/-- `extend`, src/tree/leaf_node.rs:503-515, with the slots `lo..hi` of `right`. -/
def extend (n right : LeafS K V) (lo hi : Nat) : Res (LeafS K V × LeafS K V) := do
  let (rks, ks) ← right.ks.moveTo lo hi n.ks n.size (n.size + (hi - lo))
  let (rvs, vs) ← right.vs.moveTo lo hi n.vs n.size (n.size + (hi - lo))
  return ({ n with ks, vs, size := n.size + (hi - lo) }, { right with ks := rks, vs := rvs })

/-- `merge_right_delete_first`, src/tree/leaf_node.rs:418-469. Returns the item, `self`, `right`. -/
def mergeRightDeleteFirst (n : LeafS K V) (deleteIdx : Nat) (right : LeafS K V) :
    Res ((K × V) × LeafS K V × LeafS K V) := do
  let (k, rks) ← right.ks.take deleteIdx
  let (v, rvs) ← right.vs.take deleteIdx
  let right := { right with ks := rks, vs := rvs }
  let (n, right) ← n.extend right 0 deleteIdx
  let (n, right) ← n.extend right (deleteIdx + 1) right.size
  return ((k, v), { n with next := right.next }, { right with size := 0 })

/-- `merge_right`, src/tree/leaf_node.rs:472-488. -/
def mergeRight (n right : LeafS K V) : Res (LeafS K V × LeafS K V) := do
  let (n, right) ← n.extend right 0 right.size
  return ({ n with next := right.next }, { right with size := 0 })

/-- `take_data`, src/tree/leaf_node.rs:491-501. -/
def takeData (n : LeafS K V) (slot : Nat) : Res ((K × V) × LeafS K V) :=
  if ¬ slot < n.size then .error .panic else do
  let (k, ks) ← n.ks.take slot
  let (v, vs) ← n.vs.take slot
  return ((k, v), { n with ks, vs })

/-- `Clone for LeafNode`, src/tree/leaf_node.rs:22-55 (clones of keys and values are taken to be equal
to the originals). -/
def clone (n : LeafS K V) : Res (LeafS K V) := do
  let ks ← n.ks.clonePrefix n.size leafN
  let vs ← n.vs.clonePrefix n.size leafN
  return { n with ks, vs }

/-- `in_range`, src/tree/leaf_node.rs:106-123. -/
def inRange [LinearOrder K] (n : LeafS K V) (k : K) : Res Bool := do
  let isLtStart ← (match n.prev with
    | some _ => do
      let x ← n.ks.read 0
      return decide (k < x)
    | none => return false : Res Bool)
  if isLtStart then
    return false
  let isGtEnd ← (match n.next with
    | some _ => do
      if n.size = 0 then .error .panic
      let x ← n.ks.read (n.size - 1)
      return decide (x < k)
    | none => return false : Res Bool)
  return !isGtEnd

end LeafS

/-! ## Inner nodes -/

/-- `InnerNode`, src/tree/inner_node.rs:16-23. -/
structure InnerS (K A : Type) where
  size : Nat
  ks : Slots K
  cs : Slots NodeId
  as : Slots A

namespace InnerS
variable {K A : Type}

/-- `InnerNode::empty`, src/tree/inner_node.rs:114-120. -/
def empty : InnerS K A :=
  ⟨0, Slots.uninit innerN, Slots.uninit (innerN + 1), Slots.uninit (innerN + 1)⟩

/-- `array[idx] = MaybeUninit::new(x)` for the items of an iterator, with checked indices
(inner_node.rs:144-157). -/
def fill {α : Type} (a : Slots α) (xs : List α) : Res (Slots α) :=
  xs.zipIdx.foldlM (fun (a : Slots α) (x, i) => if i < a.length then .ok (a.set i (some x))
    else .error .panic) a

/-- `new_from_iter`, src/tree/inner_node.rs:132-163. -/
def newFromIter (keys : List K) (childs : List NodeId) (augs : List A) : Res (InnerS K A) := do
  let n : InnerS K A := empty
  let ks ← fill n.ks keys
  let cs ← fill n.cs childs
  let as ← fill n.as augs
  if ¬ keys.length + 1 = childs.length then .error .panic
  return ⟨keys.length, ks, cs, as⟩

/-- `keys`, src/tree/inner_node.rs:165-177. -/
def keys (n : InnerS K A) : Res (List K) :=
  if n.size ≤ n.ks.length then (List.range n.size).mapM (fun i => n.ks.read i) else .error .ub

/-- `augmentations`, src/tree/inner_node.rs:179-192. -/
def augmentations (n : InnerS K A) : Res (List A) :=
  if n.size + 1 ≤ n.as.length then (List.range (n.size + 1)).mapM (fun i => n.as.read i)
  else .error .ub

/-- `set_augmentation`, src/tree/inner_node.rs:195-201: the old value is dropped. -/
def setAugmentation (n : InnerS K A) (idx : Nat) (a : A) : Res (InnerS K A) := do
  let _ ← n.as.read idx
  let as ← n.as.write idx a
  return { n with as }

/-- `key`, src/tree/inner_node.rs:554-556. -/
def key (n : InnerS K A) (idx : Nat) : Res K := n.ks.read idx

/-- `child_id`, src/tree/inner_node.rs:564-566 (`NodeId` is `Copy`). -/
def childId (n : InnerS K A) (idx : Nat) : Res NodeId := n.cs.read idx

/-- `set_key`, src/tree/inner_node.rs:558-562. -/
def setKey (n : InnerS K A) (idx : Nat) (key : K) : Res (K × InnerS K A) := do
  let old ← n.ks.read idx
  let ks ← n.ks.write idx key
  return (old, { n with ks })

/-- `locate_child`, src/tree/inner_node.rs:205-222. -/
def locateChild [LinearOrder K] (n : InnerS K A) (k : K) : Res (Nat × NodeId) := do
  let ks ← n.keys
  match bsearch ks k with
  | .vacant idx => do
    let c ← n.childId idx
    return (idx, c)
  | .found idx => do
    let c ← n.childId (idx + 1)
    return (idx + 1, c)

/-- `insert_at`, src/tree/inner_node.rs:225-251. -/
def insertAt (n : InnerS K A) (slot : Nat) (key : K) (rightChild : NodeId) (rightAug : A) :
    Res (InnerS K A) :=
  if ¬ slot ≤ n.size then .error .panic else
  if n.size = innerN then .error .panic else do
  let newSize := n.size + 1
  let newChildSize := n.size + 2
  let ks ← n.ks.insert newSize slot key
  let cs ← n.cs.insert newChildSize (slot + 1) rightChild
  let as ← n.as.insert newChildSize (slot + 1) rightAug
  return ⟨n.size + 1, ks, cs, as⟩

/-- One array of the first case of `split` (inner_node.rs:288-317): move `so..stop` to the front of
the new array, then insert into the first `len` slots. -/
def splitLow {α : Type} (a m : Slots α) (stop len idx : Nat) (x : α) :
    Res (Slots α × Slots α) := do
  let (a, m) ← a.moveTo splitOrigin stop m 0 (stop - splitOrigin)
  let a ← a.insert len idx x
  return (a, m)

/-- One array of the second case of `split` (inner_node.rs:332-366): move `so + 1..so + 1 + idx` to
the front of the new array, write `x` at `idx`, move the rest `so + 1 + idx..stop` behind it. -/
def splitHigh {α : Type} (a m : Slots α) (stop idx : Nat) (x : α) : Res (Slots α × Slots α) := do
  let (a, m) ← a.moveTo (splitOrigin + 1) (splitOrigin + 1 + idx) m 0 idx
  let m ← m.write idx x
  let (a, m) ← a.moveTo (splitOrigin + 1 + idx) stop m (idx + 1) (stop - splitOrigin)
  return (a, m)

/-- `split`, src/tree/inner_node.rs:257-397. Returns the promoted key, `self` and the new node. The
accesses to the three arrays are independent of each other and are grouped by array; in the second
case the code writes the key slice bounds as `prompt_key_index + 1..prompt_key_index + new_slot_idx + 1`
with `prompt_key_index = split_origin_size`. -/
def split (n : InnerS K A) (childIdx : Nat) (k : K) (newChild : NodeId) (newAug : A) :
    Res (K × InnerS K A × InnerS K A) :=
  if n.size ≠ innerN then .error .panic else
  let splitNew := innerN - splitOrigin
  let m : InnerS K A := { empty with size := splitNew }
  if childIdx < splitOrigin then do
    let (newKey, ks) ← n.ks.take (splitOrigin - 1)
    let (ks, mks) ← splitLow ks m.ks innerN (splitOrigin + 1) childIdx k
    let (cs, mcs) ← splitLow n.cs m.cs (innerN + 1) (splitOrigin + 2) (childIdx + 1) newChild
    let (as, mas) ← splitLow n.as m.as (innerN + 1) (splitOrigin + 2) (childIdx + 1) newAug
    return (newKey, ⟨splitOrigin, ks, cs, as⟩, ⟨splitNew, mks, mcs, mas⟩)
  else if splitOrigin < childIdx then do
    let (newKey, ks) ← n.ks.take splitOrigin
    let newSlotIdx := childIdx - 1 - splitOrigin
    let newChildIdx := childIdx - splitOrigin
    let (ks, mks) ← splitHigh ks m.ks innerN newSlotIdx k
    let (cs, mcs) ← splitHigh n.cs m.cs (innerN + 1) newChildIdx newChild
    let (as, mas) ← splitHigh n.as m.as (innerN + 1) newChildIdx newAug
    return (newKey, ⟨splitOrigin, ks, cs, as⟩, ⟨splitNew, mks, mcs, mas⟩)
  else do
    let (ks, mks) ← n.ks.moveTo splitOrigin innerN m.ks 0 splitNew
    let (cs, mcs) ← n.cs.moveTo (splitOrigin + 1) (innerN + 1) m.cs 1 (splitNew + 1)
    let (as, mas) ← n.as.moveTo (splitOrigin + 1) (innerN + 1) m.as 1 (splitNew + 1)
    let mcs ← mcs.write 0 newChild
    let mas ← mas.write 0 newAug
    return (k, ⟨splitOrigin, ks, cs, as⟩, ⟨splitNew, mks, mcs, mas⟩)

/-- `remove_slot_with_right`, src/tree/inner_node.rs:401-419; the boolean is
`InnerMergeResult::Done`. -/
def removeSlotWithRight (n : InnerS K A) (slot : Nat) : Res (Bool × K × InnerS K A) := do
  let (k, ks) ← n.ks.remove n.size slot
  let (_, cs) ← n.cs.remove (n.size + 1) (slot + 1)
  let (_, as) ← n.as.remove (n.size + 1) (slot + 1)
  let size := n.size - 1
  return (decide (minN ≤ size), k, ⟨size, ks, cs, as⟩)

/-- `merge_next`, src/tree/inner_node.rs:421-446. Returns `self` and `right`. -/
def mergeNext (n : InnerS K A) (slotKey : K) (right : InnerS K A) :
    Res (InnerS K A × InnerS K A) := do
  let ks ← n.ks.write n.size slotKey
  let selfSize := n.size + 1
  let rightSize := right.size
  if ¬ selfSize + rightSize ≤ innerN then .error .panic
  let (rks, ks) ← right.ks.moveTo 0 rightSize ks selfSize (selfSize + rightSize)
  let (rcs, cs) ← right.cs.moveTo 0 (rightSize + 1) n.cs selfSize (selfSize + rightSize + 1)
  let (ras, as) ← right.as.moveTo 0 (rightSize + 1) n.as selfSize (selfSize + rightSize + 1)
  return (⟨selfSize + rightSize, ks, cs, as⟩, ⟨0, rks, rcs, ras⟩)

/-- `pop`, src/tree/inner_node.rs:449-470. -/
def pop (n : InnerS K A) : Res ((K × NodeId × A) × InnerS K A) :=
  if n.size = 0 then .error .panic else do
  let (k, ks) ← n.ks.take (n.size - 1)
  let (c, cs) ← n.cs.take n.size
  let (a, as) ← n.as.take n.size
  return ((k, c, a), ⟨n.size - 1, ks, cs, as⟩)

/-- `pop_front`, src/tree/inner_node.rs:472-484. -/
def popFront (n : InnerS K A) : Res ((K × NodeId × A) × InnerS K A) := do
  let (k, ks) ← n.ks.remove n.size 0
  let (c, cs) ← n.cs.remove (n.size + 1) 0
  let (a, as) ← n.as.remove (n.size + 1) 0
  return ((k, c, a), ⟨n.size - 1, ks, cs, as⟩)

/-- `push`, src/tree/inner_node.rs:486-493. -/
def push (n : InnerS K A) (k : K) (c : NodeId) (a : A) : Res (InnerS K A) := do
  let ks ← n.ks.write n.size k
  let cs ← n.cs.write (n.size + 1) c
  let as ← n.as.write (n.size + 1) a
  return ⟨n.size + 1, ks, cs, as⟩

/-- `push_front`, src/tree/inner_node.rs:495-506. -/
def pushFront (n : InnerS K A) (k : K) (c : NodeId) (a : A) : Res (InnerS K A) := do
  let ks ← n.ks.insert (n.size + 1) 0 k
  let cs ← n.cs.insert (n.size + 2) 0 c
  let as ← n.as.insert (n.size + 2) 0 a
  return ⟨n.size + 1, ks, cs, as⟩

/-- `Drop for InnerNode`, src/tree/inner_node.rs:25-38: drops the keys `..size` and the
augmentations `..size + 1`; returns what is dropped. -/
def drop (n : InnerS K A) : Res (List K × List A) := do
  let ks ← n.ks.dropPrefix n.size
  let as ← n.as.dropPrefix (n.size + 1)
  return (ks, as)

/-- `Clone for InnerNode`, src/tree/inner_node.rs:40-70 (`K`, `A` clones are taken to be equal to
the originals; the child array is copied as it is). -/
def clone (n : InnerS K A) : Res (InnerS K A) := do
  let ks ← n.ks.clonePrefix n.size innerN
  let as ← n.as.clonePrefix (n.size + 1) (innerN + 1)
  return { n with ks, as }

/-- `merge_inner_node`, src/tree/tree_remove.rs:303-331, on the three nodes it works on: the parent
`node`, its children `left` and `right` at `slot` and `slot + 1`. `take_inner` gives the function
ownership of the box of `right`, which is dropped when the function returns. Returns what is dropped
with the box, the parent and the left child (the update of the parent's augmentation is left out). -/
def mergeInnerNode (node left right : InnerS K A) (slot : Nat) :
    Res ((List K × List A) × InnerS K A × InnerS K A) := do
  let (_, slotKey, node) ← node.removeSlotWithRight slot
  let (left, right) ← left.mergeNext slotKey right
  let dropped ← right.drop
  return (dropped, node, left)

end InnerS
end Bpt
