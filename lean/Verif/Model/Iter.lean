import Verif.Model.Tree

/-!
# Iterators (src/tree/iterator.rs)
-/

namespace Bpt
variable {K V A : Type}

/-- `Iter`, src/tree/iterator.rs:9-16. The borrowed leaves are held as values (the tree cannot
change while it is borrowed); the tree itself is a parameter of the methods. -/
structure Iter (K V : Type) where
  len : Nat
  leaf : Option (Leaf K V)
  leafOffset : Nat
  end_ : Option (Leaf K V × Nat)

/-- `Iter::new`, src/tree/iterator.rs:19-30. -/
def Tree.iter (t : Tree K V A) : Res (Iter K V) := do
  let id ← t.firstLeaf
  let leaf ← t.store.getLeaf id
  return { len := t.len, leaf := some leaf, leafOffset := 0, end_ := none }

/-- `Iter::size_hint` (both bounds), src/tree/iterator.rs:37-39; also `ExactSizeIterator::len`. -/
def Iter.sizeHint (it : Iter K V) : Nat := it.len

/-- `Iter::next`, src/tree/iterator.rs:41-70. -/
def Iter.next (t : Tree K V A) (it : Iter K V) : Res (Option (K × V) × Iter K V) :=
  if it.len = 0 then return (none, it) else
  match it.leaf with
  | none => return (none, it)
  | some leaf => do
    let kv ← leaf.dataAt it.leafOffset
    if it.leafOffset + 1 < leaf.len then
      return (some kv, { it with leafOffset := it.leafOffset + 1, len := it.len - 1 })
    else
      match leaf.next with
      | some nextId =>
        let nl ← t.store.getLeaf nextId
        return (some kv, { it with leaf := some nl, leafOffset := 0, len := it.len - 1 })
      | none =>
        return (some kv, { it with leaf := none, leafOffset := 0, len := it.len - 1 })

/-- `Iter::next_back`, src/tree/iterator.rs:74-110. `len` is not changed, as in the code. -/
def Iter.nextBack (t : Tree K V A) (it : Iter K V) : Res (Option (K × V) × Iter K V) :=
  if it.len = 0 then return (none, it) else
  match it.end_ with
  | some (leaf, offset) =>
    if 0 < offset then do
      let kv ← leaf.dataAt (offset - 1)
      return (some kv, { it with end_ := some (leaf, offset - 1) })
    else
      match leaf.prev with
      | none => return (none, it)
      | some prevId => do
        let pl ← t.store.getLeaf prevId
        if pl.len = 0 then .error .panic
        let kv ← pl.dataAt (pl.len - 1)
        return (some kv, { it with end_ := some (pl, pl.len - 1) })
  | none => do
    let lastId ← t.lastLeaf
    let ll ← t.store.getLeaf lastId
    if ll.len = 0 then return (none, it)
    let kv ← ll.dataAt (ll.len - 1)
    return (some kv, { it with end_ := some (ll, ll.len - 1) })

/-- One call on the borrowed iterator. -/
def Iter.call (t : Tree K V A) (it : Iter K V) : Dir → Res (Option (K × V) × Iter K V)
  | .front => it.next t
  | .back => it.nextBack t

/-- A schedule of calls on the borrowed iterator; each answer is paired with the `size_hint`
reported after it. -/
def Iter.runCalls (t : Tree K V A) (it : Iter K V) :
    List Dir → Res (List (Option (K × V) × Nat))
  | [] => return []
  | d :: ds => do
    let (o, it) ← it.call t d
    let rest ← Iter.runCalls t it ds
    return (o, it.sizeHint) :: rest

/-- `IntoIter`, src/tree/iterator.rs:116-123. `taken` is ghost state: the (leaf, slot) pairs whose
contents have been moved out by `take_data` (`MaybeUninit::uninit()` is written there). -/
structure IntoIter (K V A : Type) where
  store : Store K V A
  len : Nat
  pos : Nat × Nat
  end_ : Nat × Nat
  taken : List (Nat × Nat)

/-- `IntoIter::new`, src/tree/iterator.rs:126-141 (with `into_parts`, mod.rs:200-207). -/
def Tree.intoIter (t : Tree K V A) : Res (IntoIter K V A) := do
  let firstId ← t.firstLeaf
  let lastId ← t.lastLeaf
  let l ← t.store.getLeaf lastId
  return { store := t.store, len := t.len, pos := (firstId, 0), end_ := (lastId, l.len), taken := [] }

/-- `IntoIter::size_hint` / `len`, src/tree/iterator.rs:148-150. -/
def IntoIter.sizeHint (it : IntoIter K V A) : Nat := it.len

/-- `LeafNode::take_data`, src/tree/leaf_node.rs:491-501: `debug_assert!(slot < len)`; reading a
slot that was taken before is a read of an uninitialised slot. -/
def IntoIter.takeData (it : IntoIter K V A) (leafId : Nat) (leaf : Leaf K V) (slot : Nat) :
    Res ((K × V) × IntoIter K V A) :=
  match leaf.data[slot]? with
  | none => .error .panic
  | some kv =>
    if (leafId, slot) ∈ it.taken then .error .ub
    else .ok (kv, { it with taken := (leafId, slot) :: it.taken })

/-- `IntoIter::next`, src/tree/iterator.rs:152-183; `fuel` bounds the recursive calls that only
move to the next leaf. -/
def IntoIter.nextAux : Nat → IntoIter K V A → Res (Option (K × V) × IntoIter K V A)
  | 0, _ => .error .fuel
  | fuel + 1, it =>
    if it.len = 0 then return (none, it) else do
    let leaf ← it.store.getLeaf it.pos.1
    if it.pos.2 < leaf.len then
      let (kv, it') ← it.takeData it.pos.1 leaf it.pos.2
      return (some kv, { it' with len := it.len - 1, pos := (it.pos.1, it.pos.2 + 1) })
    else
      match leaf.next with
      | some nextId => IntoIter.nextAux fuel { it with pos := (nextId, 0) }
      | none => .error .panic

/-- `IntoIter::next`. -/
def IntoIter.next (it : IntoIter K V A) : Res (Option (K × V) × IntoIter K V A) :=
  IntoIter.nextAux (it.store.leaves.length + 1) it

/-- `IntoIter::next_back`, src/tree/iterator.rs:187-218. -/
def IntoIter.nextBackAux : Nat → IntoIter K V A → Res (Option (K × V) × IntoIter K V A)
  | 0, _ => .error .fuel
  | fuel + 1, it =>
    if it.len = 0 then return (none, it) else do
    let leaf ← it.store.getLeaf it.end_.1
    if 0 < it.end_.2 then
      let (kv, it') ← it.takeData it.end_.1 leaf (it.end_.2 - 1)
      return (some kv, { it' with len := it.len - 1, end_ := (it.end_.1, it.end_.2 - 1) })
    else
      match leaf.prev with
      | some prevId => do
        let pl ← it.store.getLeaf prevId
        IntoIter.nextBackAux fuel { it with end_ := (prevId, pl.len) }
      | none => .error .panic

/-- `IntoIter::next_back`. -/
def IntoIter.nextBack (it : IntoIter K V A) : Res (Option (K × V) × IntoIter K V A) :=
  IntoIter.nextBackAux (it.store.leaves.length + 1) it

/-- One call on the owning iterator. -/
def IntoIter.call (it : IntoIter K V A) : Dir → Res (Option (K × V) × IntoIter K V A)
  | .front => it.next
  | .back => it.nextBack

/-- A schedule of calls on the owning iterator; each answer is paired with the `size_hint` reported
after it. Returns the final state as well. -/
def IntoIter.runCalls (it : IntoIter K V A) :
    List Dir → Res (List (Option (K × V) × Nat) × IntoIter K V A)
  | [] => return ([], it)
  | d :: ds => do
    let (o, it) ← it.call d
    let (rest, it') ← IntoIter.runCalls it ds
    return ((o, it.sizeHint) :: rest, it')

/-- `Drop for IntoIter`, src/tree/iterator.rs:224-229: `while self.next().is_some() {}`. Returns the
items dropped, in order; `fuel` bounds the loop. -/
def IntoIter.dropAux : Nat → IntoIter K V A → Res (List (K × V))
  | 0, _ => .error .fuel
  | fuel + 1, it => do
    let (o, it) ← it.next
    match o with
    | none => return []
    | some kv =>
      let rest ← IntoIter.dropAux fuel it
      return kv :: rest

/-- `Drop for IntoIter`. -/
def IntoIter.drop (it : IntoIter K V A) : Res (List (K × V)) :=
  IntoIter.dropAux (it.len + 1) it

/-- `Drop for BPlusTree`, src/tree/mod.rs:818-822: `drop(ptr::read(self).into_iter())`. Returns the
items dropped. -/
def Tree.drop (t : Tree K V A) : Res (List (K × V)) := do
  let it ← t.intoIter
  it.drop

end Bpt
