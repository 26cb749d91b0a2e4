import Verif.Model.RawCursor

/-!
# `clone` of a map, call by call of user code

`BPlusTree::clone` calls `A::clone`, `K::clone` and `V::clone`. Here it is written again, on the arrays of
the nodes, so that it also lists what has been built so far at each of these calls (`Clones`). A panic of
the call unwinds: `Clones.unwind`. A panic in a destructor is not modelled.
-/

namespace Bpt
namespace Raw
variable {K V A : Type}

/-- A call of `Clone::clone`, with what it is called on. -/
inductive Cloned (K V A : Type) where
  | key (k : K)
  | value (v : V)
  | aug (a : A)
deriving DecidableEq

/-- A program together with the list of its steps that matter here. -/
structure Steps (ε α : Type) where
  trace : List ε
  result : Res α

namespace Steps
variable {ε α β : Type}

instance : Monad (Steps ε) where
  pure a := ⟨[], .ok a⟩
  bind x f := match x.result with
    | .ok a => ⟨x.trace ++ (f a).trace, (f a).result⟩
    | .error e => ⟨x.trace, .error e⟩

/-- Code without such steps. -/
instance : MonadLift Res (Steps ε) where
  monadLift x := ⟨[], x⟩

/-- One step. -/
def step (e : ε) : Steps ε Unit := ⟨[e], .ok ()⟩

end Steps

/-- What `clone` has built when it calls user code. -/
structure Clones (K V A : Type) where
  /-- the clone of `root_augmentation`, once made (a field of the derived `Clone`, src/tree/mod.rs:86-93) -/
  rootAug : List A := []
  /-- the elements of the new vector `inner_nodes` (src/tree/node_stores/vec_backed.rs:14) -/
  inners : List (Option (InnerS K A)) := []
  /-- the elements of the new vector `leaf_nodes` (vec_backed.rs:15) -/
  leaves : List (Option (LeafS K V)) := []
  /-- the local variable `new_key` (src/tree/inner_node.rs:43, src/tree/leaf_node.rs:28) -/
  keys : Slots K := []
  /-- the local variable `new_augmentation` (inner_node.rs:53-54) -/
  augs : Slots A := []
  /-- the local variable `new_value` (leaf_node.rs:38) -/
  vals : Slots V := []

/-- Dropping an element of the vector `inner_nodes`: `Drop for InnerNode` (src/tree/inner_node.rs:25-38). -/
def dropSlot : Option (InnerS K A) → Res (List K × List A)
  | some n => n.drop
  | none => return ([], [])

/-- What a panic of user code inside `clone` drops: the augmentation, and the inner nodes by `Drop for
InnerNode` (src/tree/inner_node.rs:25-38). A `LeafNode` has no `Drop`, and neither has an array of
`MaybeUninit`. -/
def Clones.unwind (w : Clones K V A) : Res (List K × List A) := do
  let ds ← w.inners.mapM dropSlot
  return (ds.flatMap (·.1), w.rootAug ++ ds.flatMap (·.2))

/-- The values in an array. -/
def _root_.Bpt.Slots.present {α : Type} (a : Slots α) : List α := a.filterMap id

/-- The keys in an element of the vector `leaf_nodes`. -/
def leafKeys : Option (LeafS K V) → List K
  | some l => l.ks.present
  | none => []

/-- The values in it. -/
def leafVals : Option (LeafS K V) → List V
  | some l => l.vs.present
  | none => []

/-- The keys that a panic inside `clone` leaks. -/
def Clones.leakedKeys (w : Clones K V A) : List K :=
  w.leaves.flatMap leafKeys ++ w.keys.present

/-- The values it leaks. -/
def Clones.leakedVals (w : Clones K V A) : List V :=
  w.leaves.flatMap leafVals ++ w.vals.present

/-- The augmentations it leaks. -/
def Clones.leakedAugs (w : Clones K V A) : List A := w.augs.present

/-- The loops of src/tree/inner_node.rs:45-50, 56-61 and src/tree/leaf_node.rs:30-35, 40-45: the slots `is` of
`a` are cloned into the array `b`. -/
def cloneSlotsT {ε α : Type} (e : α → Slots α → ε) (a : Slots α) :
    List Nat → Slots α → Steps ε (Slots α)
  | [], b => return b
  | i :: is, b => do
    let x ← a.read i
    Steps.step (e x b)
    let b ← b.write i x
    cloneSlotsT e a is b

/-- `Clone for InnerNode`, src/tree/inner_node.rs:40-70. -/
def _root_.Bpt.InnerS.cloneT (w : Clones K V A) (n : InnerS K A) :
    Steps (Cloned K V A × Clones K V A) (InnerS K A) := do
  let ks ← cloneSlotsT (fun x b => (.key x, { w with keys := b })) n.ks (List.range n.size)
    (Slots.uninit innerN)
  let as ← cloneSlotsT (fun x b => (.aug x, { w with keys := ks, augs := b })) n.as
    (List.range (n.size + 1)) (Slots.uninit (innerN + 1))
  return { n with ks, as }

/-- `Clone for LeafNode`, src/tree/leaf_node.rs:22-55. -/
def _root_.Bpt.LeafS.cloneT (w : Clones K V A) (n : LeafS K V) :
    Steps (Cloned K V A × Clones K V A) (LeafS K V) := do
  let ks ← cloneSlotsT (fun x b => (.key x, { w with keys := b })) n.ks (List.range n.size)
    (Slots.uninit leafN)
  let vs ← cloneSlotsT (fun x b => (.value x, { w with keys := ks, vals := b })) n.vs
    (List.range n.size) (Slots.uninit leafN)
  return { n with ks, vs }

/-- `Clone` of the vector `inner_nodes`, src/tree/node_stores/vec_backed.rs:14; `w.inners` has been cloned. -/
def cloneInnersT (w : Clones K V A) :
    List (Option (InnerS K A)) → Steps (Cloned K V A × Clones K V A) (List (Option (InnerS K A)))
  | [] => return w.inners
  | none :: os => cloneInnersT { w with inners := w.inners ++ [none] } os
  | some n :: os => do
    let n' ← n.cloneT w
    cloneInnersT { w with inners := w.inners ++ [some n'] } os

/-- `Clone` of the vector `leaf_nodes`, src/tree/node_stores/vec_backed.rs:15; `w.leaves` has been cloned. -/
def cloneLeavesT (w : Clones K V A) :
    List (Option (LeafS K V)) → Steps (Cloned K V A × Clones K V A) (List (Option (LeafS K V)))
  | [] => return w.leaves
  | none :: os => cloneLeavesT { w with leaves := w.leaves ++ [none] } os
  | some n :: os => do
    let n' ← n.cloneT w
    cloneLeavesT { w with leaves := w.leaves ++ [some n'] } os

/-- `Clone for NodeStoreVec`, src/tree/node_stores/vec_backed.rs:11-21. -/
def Store.cloneT (w : Clones K V A) (s : Store K V A) :
    Steps (Cloned K V A × Clones K V A) (Store K V A) := do
  let inners ← cloneInnersT w s.inners
  let leaves ← cloneLeavesT { w with inners := inners } s.leaves
  return ⟨inners, leaves, s.cached⟩

/-- `Clone for BPlusTree` (derived: field by field in their order), src/tree/mod.rs:86-93. -/
def Tree.cloneT (t : Tree K V A) : Steps (Cloned K V A × Clones K V A) (Tree K V A) := do
  Steps.step (.aug t.rootAug, {})
  let store ← t.store.cloneT { rootAug := [t.rootAug] }
  return { t with store }

end Raw
end Bpt
