import Verif.RawHistory
import Verif.Model.CloneCrash

/-!
# Destructors that panic

`drop` of a map, `clear`, and `drop` of an owning iterator run the destructors of keys, values and
augmentations, which are user code and may panic. Rust's rules for it, which are part of this model:

* a panic inside `Drop::drop` leaves that body, and the fields of the value are destroyed all the same
  (also the elements that follow in a vector, and the second component of a pair);
* a second panic while the first one unwinds aborts the process.

The destructors run are listed in order, with the panicking ones among them.
-/

namespace Bpt
namespace Raw
variable {K V A : Type}

/-- A destructor that runs: that of a key, of a value, or of an augmentation. -/
abbrev Destroyed (K V A : Type) := Cloned K V A

/-- How a run of destructors ends. -/
inductive Ending where
  /-- all destructors returned -/
  | done
  /-- one of them panicked; the panic goes on to the caller -/
  | unwound
  /-- one of them panicked while a panic was unwinding: the process aborts -/
  | aborted
  deriving DecidableEq, Repr

/-- A panic in a program that is in the state `e`. -/
def Ending.panicked : Ending → Ending
  | .done => .unwound
  | _ => .aborted

/-- Destruction of the `Option<(K, V)>` of `while self.next().is_some() {}`, src/tree/iterator.rs:227: the key,
then the value, the latter also if the destructor of the key panics. `bomb` says which destructors panic. -/
def dropItemP (bomb : Destroyed K V A → Bool) (kv : K × V) : List (Destroyed K V A) × Ending :=
  let e := if bomb (.key kv.1) then Ending.done.panicked else .done
  let e := if bomb (.value kv.2) then e.panicked else e
  ([.key kv.1, .value kv.2], e)

/-- `Drop for IntoIter`, src/tree/iterator.rs:224-229, which stops at the first panic. Returns the destructors
run, how it ends, and the iterator whose fields are destroyed afterwards. -/
def IntoIter.dropAuxP (bomb : Destroyed K V A → Bool) :
    Nat → IntoIter K V A → Res ((List (Destroyed K V A) × Ending) × IntoIter K V A)
  | 0, _ => .error .fuel
  | fuel + 1, it => do
    let (o, it) ← it.next
    match o with
    | none => return (([], .done), it)
    | some kv =>
      match dropItemP bomb kv with
      | (log, .done) =>
        let ((rest, e), it) ← IntoIter.dropAuxP bomb fuel it
        return ((log ++ rest, e), it)
      | (log, e) => return ((log, e), it)

/-- The loops of `Drop for InnerNode`, src/tree/inner_node.rs:29-31, 33-35, over the slots `is` of an array:
they stop at the first destructor that panics. `true` if there is one. -/
def dropSlotsP {α : Type} (f : α → Destroyed K V A) (bomb : Destroyed K V A → Bool) (a : Slots α) :
    List Nat → Res (List (Destroyed K V A) × Bool)
  | [] => return ([], false)
  | i :: is => do
    let x ← a.read i
    if bomb (f x) then return ([f x], true) else
    let (rest, p) ← dropSlotsP f bomb a is
    return (f x :: rest, p)

/-- `Drop for InnerNode`, src/tree/inner_node.rs:25-38. -/
def _root_.Bpt.InnerS.dropP (bomb : Destroyed K V A → Bool) (n : InnerS K A) :
    Res (List (Destroyed K V A) × Bool) := do
  let (ks, p) ← dropSlotsP .key bomb n.ks (List.range n.size)
  if p then return (ks, true) else
  let (as, p) ← dropSlotsP .aug bomb n.as (List.range (n.size + 1))
  return (ks ++ as, p)

/-- Destruction of the vector `inner_nodes` (src/tree/node_stores/vec_backed.rs:14-19) in a program that is in the state
`e`. The vector `leaf_nodes` has no destructor to run: `LeafNode` has no `Drop`, and its arrays are of
`MaybeUninit`. -/
def dropInnersP (bomb : Destroyed K V A → Bool) :
    Ending → List (Option (InnerS K A)) → Res (List (Destroyed K V A) × Ending)
  | e, [] => return ([], e)
  | e, none :: os => dropInnersP bomb e os
  | e, some n :: os => do
    let (log, p) ← n.dropP bomb
    let e := if p then e.panicked else e
    if e = .aborted then return (log, e) else
    let (rest, e) ← dropInnersP bomb e os
    return (log ++ rest, e)

/-- `drop` of an owning iterator: `Drop for IntoIter`, src/tree/iterator.rs:224-229, and then its field
`node_store`, src/tree/iterator.rs:117. -/
def IntoIter.dropP (bomb : Destroyed K V A → Bool) (it : IntoIter K V A) :
    Res (List (Destroyed K V A) × Ending) := do
  let ((log, e), it) ← it.dropAuxP bomb (it.len + 1)
  if e = .aborted then return (log, e) else
  let (rest, e) ← dropInnersP bomb e it.store.inners
  return (log ++ rest, e)

/-- `drop` of a map: `Drop for BPlusTree`, src/tree/mod.rs:818-822, and then its field `root_augmentation`,
src/tree/mod.rs:89; the other fields have no destructor (`node_store` is a `ManuallyDrop`). -/
def Tree.dropP (bomb : Destroyed K V A → Bool) (t : Tree K V A) :
    Res (List (Destroyed K V A) × Ending) := do
  let it ← t.intoIter
  let (log, e) ← it.dropP bomb
  if e = .aborted then return (log, e) else
  return (log ++ [.aug t.rootAug], if bomb (.aug t.rootAug) then e.panicked else e)

/-- `clear`, src/tree/mod.rs:663-666: the empty map is put in place first, then the old one is dropped. Returns
also the map that the caller finds. -/
def Tree.clearP [Augmentation K V A] (bomb : Destroyed K V A → Bool) (t : Tree K V A) :
    Res ((List (Destroyed K V A) × Ending) × Tree K V A) := do
  let out ← t.dropP bomb
  return (out, Tree.new)

/-- `remove_slot_with_right`, src/tree/inner_node.rs:401-411, up to the destruction of the removed augmentation
at the end of the statement of lines 405-408. Returns that augmentation, the local variable `k`, and the node as
it is then. -/
def _root_.Bpt.InnerS.removeSlotWithRightToDrop (n : InnerS K A) (slot : Nat) : Res (A × K × InnerS K A) := do
  let (k, ks) ← n.ks.remove n.size slot
  let (_, cs) ← n.cs.remove (n.size + 1) (slot + 1)
  let (a, as) ← n.as.remove (n.size + 1) (slot + 1)
  return (a, k, ⟨n.size, ks, cs, as⟩)

end Raw
end Bpt
