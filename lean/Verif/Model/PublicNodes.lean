import Verif.Model.RawCursor

/-!
# The safe public methods of nodes and of the node store

`LeafNode`, `InnerNode` and `NodeStoreVec` are exported (src/tree/mod.rs:7-17, src/lib.rs:13), so a program that has no
`unsafe` of its own can call these methods with any arguments and in any order. Here they are on the arrays of
`Model/Slots`, for C60. A run ends at the first panic. The lookups call the standard library's binary search on keys
that need not be sorted; `Compare` stands for any comparisons and any search that answers an index within the slice.
-/

namespace Bpt

/-- What the user's `Ord` and the standard library's `binary_search_by_key` answer. -/
structure Compare (K : Type) where
  lt : K → K → Bool
  gt : K → K → Bool
  find : List K → K → Slot
  found : ∀ l k i, find l k = .found i → i < l.length
  vacant : ∀ l k i, find l k = .vacant i → i ≤ l.length

/-! ## Leaves -/

/-- The safe public methods of `LeafNode` (src/tree/leaf_node.rs:22-200, 311-341, 527-553). `clone` goes on with the copy. -/
inductive LeafCall (K V : Type) where
  | len | isEmpty | isFull | ableToLend | isSizeMinimum | prev | next
  | setPrev (id : Option Nat) | setNext (id : Option Nat)
  | setData (data : List (K × V))
  | dataAt (slot : Nat)
  | tryDataAt (idx : Nat)
  | valueAtMut (slot : Nat) (f : V → V)
  | keys | values
  | inRange (k : K) | keyRange
  | locateSlot (k : K) | locateSlotWithValue (k : K)
  | clone

/-- What they return. -/
inductive LeafAnswer (K V : Type) where
  | done
  | number (n : Nat)
  | flag (b : Bool)
  | id (o : Option Nat)
  | item (e : K × V)
  | maybe (o : Option (K × V))
  | value (v : V)
  | keys (l : List K)
  | values (l : List V)
  | range (r : Option K × Option K)
  | slot (s : Slot)
  | slotValue (r : Nat × Option V)

namespace LeafS
variable {K V : Type}

/-- `set_data`, src/tree/leaf_node.rs:156-168, with the overflow check of `self.size += 1` on a `u16` (line 163). -/
def setDataChecked (n : LeafS K V) (data : List (K × V)) : Res (LeafS K V) :=
  (data.take leafN).zipIdx.foldlM (fun n (kv, i) => do
    let ks ← n.ks.write i kv.1
    let vs ← n.vs.write i kv.2
    if n.size + 1 < 2 ^ 16 then return { n with ks, vs, size := n.size + 1 } else .error .panic) n

/-- `value_at_mut`, src/tree/leaf_node.rs:180-182, and the caller's write through the reference; gives the value read. -/
def valueAtMut (n : LeafS K V) (slot : Nat) (f : V → V) : Res (V × LeafS K V) := do
  let v ← n.vs.read slot
  let vs ← n.vs.write slot (f v)
  return (v, { n with vs })

/-- `in_range`, src/tree/leaf_node.rs:106-123. -/
def inRangeBy (o : Compare K) (n : LeafS K V) (k : K) : Res Bool := do
  let isLtStart ← (match n.prev with
    | some _ => do
      let x ← n.ks.read 0
      return o.lt k x
    | none => return false : Res Bool)
  if isLtStart then
    return false
  let isGtEnd ← (match n.next with
    | some _ => do
      if n.size = 0 then .error .panic
      let x ← n.ks.read (n.size - 1)
      return o.gt k x
    | none => return false : Res Bool)
  return !isGtEnd

/-- `locate_slot`, src/tree/leaf_node.rs:311-317. -/
def locateSlotBy (o : Compare K) (n : LeafS K V) (k : K) : Res Slot := do
  let ks ← n.keys
  return o.find ks k

/-- `locate_slot_with_value`, src/tree/leaf_node.rs:320-341. -/
def locateSlotWithValueBy (o : Compare K) (n : LeafS K V) (k : K) : Res (Nat × Option V) := do
  match ← n.locateSlotBy o k with
  | .found i =>
    let v ← n.vs.read i
    return (i, some v)
  | .vacant i => return (i, none)

/-- One call (src/tree/leaf_node.rs, lines as above; `len` … `is_size_minimum` 70-104, 136-138; `set_prev` … `next`
140-154). -/
def publicCall (o : Compare K) (n : LeafS K V) : LeafCall K V → Res (LeafAnswer K V × LeafS K V)
  | .len => return (.number n.size, n)
  | .isEmpty => return (.flag (n.size == 0), n)
  | .isFull => return (.flag (n.size == leafN), n)
  | .ableToLend => return (.flag (decide (minN < n.size)), n)
  | .isSizeMinimum => return (.flag (n.size == minN), n)
  | .prev => return (.id n.prev, n)
  | .next => return (.id n.next, n)
  | .setPrev id => return (.done, { n with prev := id })
  | .setNext id => return (.done, { n with next := id })
  | .setData data => do
    let n ← n.setDataChecked data
    return (.done, n)
  | .dataAt slot => do
    let e ← n.dataAt slot
    return (.item e, n)
  | .tryDataAt idx => do
    let e ← n.tryDataAt idx
    return (.maybe e, n)
  | .valueAtMut slot f => do
    let (v, n) ← n.valueAtMut slot f
    return (.value v, n)
  | .keys => do
    let l ← n.keys
    return (.keys l, n)
  | .values => do
    let l ← n.values
    return (.values l, n)
  | .inRange k => do
    let b ← n.inRangeBy o k
    return (.flag b, n)
  | .keyRange => do
    let r ← Raw.keyRange n
    return (.range r, n)
  | .locateSlot k => do
    let s ← n.locateSlotBy o k
    return (.slot s, n)
  | .locateSlotWithValue k => do
    let r ← n.locateSlotWithValueBy o k
    return (.slotValue r, n)
  | .clone => do
    let n ← n.clone
    return (.done, n)

/-- A sequence of calls. -/
def publicRun (o : Compare K) (n : LeafS K V) : List (LeafCall K V) → Res (List (LeafAnswer K V) × LeafS K V)
  | [] => return ([], n)
  | c :: cs => do
    let (a, n) ← n.publicCall o c
    let (as, n) ← publicRun o n cs
    return (a :: as, n)

end LeafS

/-! ## Inner nodes -/

/-- The safe public methods of `InnerNode` on a node (src/tree/inner_node.rs:40-111, 205-222, 486-493, 554-556). `clone`
goes on with the copy and forgets the original. -/
inductive InnerCall (K A : Type) where
  | len | isEmpty | isFull | ableToLend
  | key (idx : Nat)
  | locateChild (k : K)
  | push (k : K) (child : NodeId) (a : A)
  | clone

/-- What they return. -/
inductive InnerAnswer (K : Type) where
  | done
  | number (n : Nat)
  | flag (b : Bool)
  | key (k : K)
  | child (r : Nat × NodeId)

namespace InnerS
variable {K A : Type}

/-- A panic inside `new_from_iter`: the local variable `node` is destroyed (`Drop for InnerNode`,
src/tree/inner_node.rs:25-38); its `size` is still 0. -/
def unwind {β : Type} (node : InnerS K A) : Res β := do
  let _ ← node.drop
  .error .panic

/-- `new_from_iter`, src/tree/inner_node.rs:132-163, with the unwinding after a failed index check (lines 145, 151,
156) or a failed assertion (line 159). Of what has been written only the augmentations matter for the unwinding, as
`size` is 0. -/
def newFromIterPublic (keys : List K) (childs : List NodeId) (augs : List A) : Res (InnerS K A) :=
  let n : InnerS K A := empty
  match fill n.ks keys with
  | .error _ => unwind n
  | .ok ks =>
    match fill n.cs childs with
    | .error _ => unwind { n with ks }
    | .ok cs =>
      match fill n.as augs with
      | .error _ => do
        let as ← fill n.as (augs.take (innerN + 1))
        unwind { n with ks, cs, as }
      | .ok as =>
        if keys.length + 1 = childs.length then .ok ⟨keys.length, ks, cs, as⟩
        else unwind { n with ks, cs, as }

/-- `locate_child`, src/tree/inner_node.rs:205-222. -/
def locateChildBy (o : Compare K) (n : InnerS K A) (k : K) : Res (Nat × NodeId) := do
  let ks ← n.keys
  match o.find ks k with
  | .vacant idx => do
    let c ← n.childId idx
    return (idx, c)
  | .found idx => do
    let c ← n.childId (idx + 1)
    return (idx + 1, c)

/-- One call. -/
def publicCall (o : Compare K) (n : InnerS K A) : InnerCall K A → Res (InnerAnswer K × InnerS K A)
  | .len => return (.number n.size, n)
  | .isEmpty => return (.flag (n.size == 0), n)
  | .isFull => return (.flag (n.size == innerN), n)
  | .ableToLend => return (.flag (decide (minN < n.size)), n)
  | .key idx => do
    let k ← n.key idx
    return (.key k, n)
  | .locateChild k => do
    let r ← n.locateChildBy o k
    return (.child r, n)
  | .push k child a => do
    let n ← n.push k child a
    return (.done, n)
  | .clone => do
    let n ← n.clone
    return (.done, n)

/-- A sequence of calls; then the node is destroyed. Gives the answers, the keys and the augmentations destroyed. -/
def publicRun (o : Compare K) (n : InnerS K A) : List (InnerCall K A) → Res (List (InnerAnswer K) × List K × List A)
  | [] => do
    let (ks, as) ← n.drop
    return ([], ks, as)
  | c :: cs => do
    let (a, n) ← n.publicCall o c
    let (as, r) ← publicRun o n cs
    return (a :: as, r)

end InnerS

/-! ## The node store -/

/-- The safe methods of `NodeStore` (src/tree/mod.rs:861-952) as implemented by `NodeStoreVec`; a node obtained by
`get_mut_*` is used for one of its own methods. Not listed: `get_mut_inner` (as `get_mut_leaf`), `inner_n`, `leaf_n`. -/
inductive StoreCall (K V A : Type) where
  | newEmptyLeaf | reserveLeaf
  | addInner (n : InnerS K A)
  | getInner (id : Nat) | tryGetInner (id : Nat) | takeInner (id : Nat) | putBackInner (id : Nat) (n : InnerS K A)
  | getLeaf (id : Nat) | tryGetLeaf (id : Nat) | takeLeaf (id : Nat) | assignLeaf (id : Nat) (l : LeafS K V)
  | getMutLeaf (id : Nat) (c : LeafCall K V)
  | cacheLeaf (id : Nat) | tryCache (k : K)

/-- What they return. -/
inductive StoreAnswer (K V A : Type) where
  | done
  | id (i : Nat)
  | maybeId (o : Option Nat)
  | inner (n : InnerS K A)
  | maybeInner (o : Option (InnerS K A))
  | leaf (l : LeafS K V)
  | maybeLeaf (o : Option (LeafS K V))
  | answer (a : LeafAnswer K V)

namespace Raw.Store
variable {K V A : Type}

/-- `try_get_inner`, src/tree/node_stores/vec_backed.rs:141-144. -/
def tryGetInner (s : Store K V A) (id : Nat) : Option (InnerS K A) :=
  match s.inners[id]? with
  | some (some n) => some n
  | _ => none

/-- `put_back_inner`, vec_backed.rs:163-165. -/
def putBackInner (s : Store K V A) (id : Nat) (n : InnerS K A) : Res (Store K V A) :=
  if id < s.inners.length then .ok (s.setInner id n) else .error .panic

/-- `try_cache`, vec_backed.rs:229-246. -/
def tryCacheBy (o : Compare K) (s : Store K V A) (k : K) : Res (Option Nat) :=
  match s.cached with
  | none => return none
  | some id =>
    match s.tryGetLeaf id with
    | none => return none
    | some l => do
      let b ← l.inRangeBy o k
      return if b then some id else none

/-- One call (src/tree/node_stores/vec_backed.rs:115-246). -/
def publicCall (o : Compare K) (s : Store K V A) : StoreCall K V A → Res (StoreAnswer K V A × Store K V A)
  | .newEmptyLeaf => let (s, i) := s.newEmptyLeaf; return (.id i, s)
  | .reserveLeaf => let (s, i) := s.reserveLeaf; return (.id i, s)
  | .addInner n => let (s, i) := s.addInner n; return (.id i, s)
  | .getInner id => do
    let n ← s.getInner id
    return (.inner n, s)
  | .tryGetInner id => return (.maybeInner (s.tryGetInner id), s)
  | .takeInner id => do
    let (n, s) ← s.takeInner id
    return (.inner n, s)
  | .putBackInner id n => do
    let s ← s.putBackInner id n
    return (.done, s)
  | .getLeaf id => do
    let l ← s.getLeaf id
    return (.leaf l, s)
  | .tryGetLeaf id => return (.maybeLeaf (s.tryGetLeaf id), s)
  | .takeLeaf id => do
    let (l, s) ← s.takeLeaf id
    return (.leaf l, s)
  | .assignLeaf id l => do
    let s ← s.assignLeaf id l
    return (.done, s)
  | .getMutLeaf id c => do
    let l ← s.getLeaf id
    let (a, l) ← l.publicCall o c
    return (.answer a, s.setLeaf id l)
  | .cacheLeaf id => return (.done, s.cacheLeaf id)
  | .tryCache k => do
    let r ← s.tryCacheBy o k
    return (.maybeId r, s)

/-- A sequence of calls. -/
def publicRun (o : Compare K) (s : Store K V A) :
    List (StoreCall K V A) → Res (List (StoreAnswer K V A) × Store K V A)
  | [] => return ([], s)
  | c :: cs => do
    let (a, s) ← s.publicCall o c
    let (as, s) ← publicRun o s cs
    return (a :: as, s)

end Raw.Store
end Bpt
