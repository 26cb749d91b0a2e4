import Mathlib.Order.Defs.LinearOrder

/-!
# Basic vocabulary of the model

Faults, constants, node ids and the slice helpers. All type parameters live in `Type`.
-/

namespace Bpt

/-- What can go wrong when running the Rust code.
`panic`: `panic!`, `unwrap`, `expect`, `unreachable!`, `assert!`, `debug_assert!`, checked indexing,
  arithmetic underflow (debug semantics).
`ub`: out-of-range `get_unchecked`, `assume_init` of an uninitialised slot, access to a freed or
  never allocated node (`unreachable_unchecked` in the store accessors).
`fuel`: a pointer-chasing loop ran for more steps than there are nodes in the store; the model's
  stand-in for "does not terminate". -/
inductive Fault where
  | panic
  | ub
  | fuel
deriving DecidableEq, Repr

/-- Result of running a piece of the Rust code. -/
abbrev Res := Except Fault

/-- Decidable equality of results, used only to evaluate concrete examples. -/
instance {ε α : Type} [DecidableEq ε] [DecidableEq α] : DecidableEq (Except ε α)
  | .ok a, .ok b => if h : a = b then isTrue (by rw [h]) else isFalse (by intro e; cases e; exact h rfl)
  | .error a, .error b =>
    if h : a = b then isTrue (by rw [h]) else isFalse (by intro e; cases e; exact h rfl)
  | .ok _, .error _ => isFalse (by intro e; cases e)
  | .error _, .ok _ => isFalse (by intro e; cases e)

/-- `INNER_N`, src/tree/consts.rs:2. Key capacity of an inner node. -/
abbrev innerN : Nat := 64
/-- `LEAF_N`, src/tree/consts.rs:6. Item capacity of a leaf. -/
abbrev leafN : Nat := 64
/-- `MIN_N = INNER_N / 4`, src/tree/consts.rs:10; also `LeafNode::minimum_size`,
src/tree/leaf_node.rs:89-96 (`N / 4`, not zero). -/
abbrev minN : Nat := 16
/-- `MAX_DEPTH = usize::MAX.ilog(16)`, src/tree/consts.rs:14, on a 64-bit target. -/
abbrev maxDepth : Nat := 15
/-- `split_origin_size`, src/tree/inner_node.rs:89-91 and src/tree/leaf_node.rs:78-80. -/
abbrev splitOrigin : Nat := 32

/-- `NodeId`, src/tree/node_id.rs:36-40, with `InnerNodeId`/`LeafNodeId` as numbers. -/
inductive NodeId where
  | inner (i : Nat)
  | leaf (i : Nat)
deriving DecidableEq, Repr

/-- `NodeId::leaf_id_unchecked`, src/tree/node_id.rs:50-55. -/
def NodeId.leafIdUnchecked : NodeId → Res Nat
  | .leaf i => .ok i
  | .inner _ => .error .ub

/-- `NodeId::inner_id_unchecked`, src/tree/node_id.rs:66-71. -/
def NodeId.innerIdUnchecked : NodeId → Res Nat
  | .inner i => .ok i
  | .leaf _ => .error .ub

/-- `slice_insert`, src/tree/slice_utils.rs:10-20, on a slice holding the initialised elements `l`
followed by one free slot: `debug_assert!(len > idx)` with `len = l.length + 1`.
List-level view; the slot-level version is in `Model/Slots.lean`. -/
def sliceInsert {α : Type} (l : List α) (idx : Nat) (x : α) : Res (List α) :=
  if idx ≤ l.length then .ok (l.take idx ++ x :: l.drop idx) else .error .panic

/-- `slice_remove`, src/tree/slice_utils.rs:27-36, on a slice of initialised elements
(`debug_assert!(idx < len)`). List-level view. -/
def sliceRemove {α : Type} (l : List α) (idx : Nat) : Res (α × List α) :=
  match l[idx]? with
  | some x => .ok (x, l.take idx ++ l.drop (idx + 1))
  | none => .error .panic

/-- Unchecked read of slot `idx` among the initialised elements: `get_unchecked(idx)` followed by
`assume_init_ref/read` (e.g. src/tree/leaf_node.rs:170-177, src/tree/inner_node.rs:554-566). -/
def readAt {α : Type} (l : List α) (idx : Nat) : Res α :=
  match l[idx]? with
  | some x => .ok x
  | none => .error .ub

/-- `Result<usize, usize>` of a binary search. -/
inductive Slot where
  | found (i : Nat)
  | vacant (i : Nat)
deriving DecidableEq, Repr

/-- `slice::binary_search_by_key` as used by `locate_slot` (src/tree/leaf_node.rs:311-317) and
`locate_child` (src/tree/inner_node.rs:210). Simplification: modelled by the documented result on a
strictly sorted slice (position of the first key that is not smaller); `Props/BinarySearch.lean`
proves that the halving search of the standard library returns the same on sorted slices. -/
def bsearch {K : Type} [LinearOrder K] (keys : List K) (k : K) : Slot :=
  let i := (keys.takeWhile (· < k)).length
  if keys[i]? = some k then .found i else .vacant i

/-- Which end an iterator is advanced from. -/
inductive Dir where
  | front
  | back
deriving DecidableEq, Repr

/-- `Augmentation`, src/augment/mod.rs:10-26 (`Default` supplies `dflt`). `is_zst` is not used by
the tree code and not modelled. -/
class Augmentation (K V A : Type) where
  /-- `Default::default()` -/
  dflt : A
  /-- `from_inner(keys, augmentations)` -/
  fromInner : List K → List A → A
  /-- `from_leaf(keys, values)` -/
  fromLeaf : List K → List V → A

/-- `SearchAugmentation`, src/augment/mod.rs:31-44. -/
class SearchAugmentation (K V A : Type) (Q : outParam Type) where
  locateInLeaf : Q → List K → List V → Option Nat
  locateInInner : Q → List K → List A → Option (Nat × Q)

/-- `RankAugmentation`, src/augment/mod.rs:47-67. A `Slot` is the `Result<usize, usize>` argument
of `fold_leaf`; its result `Result<Rank, Rank>` is `Except R R` (`Ok` = `.ok`, `Err` = `.error`). -/
class RankAugmentation (K V A : Type) (R : outParam Type) where
  initialValue : R
  foldInner : K → R → List A → R
  foldLeaf : K → R → Slot → List K → Except R R

/-- The dummy augmentation `()`, src/augment/mod.rs:70-80. -/
instance unitAug {K V : Type} : Augmentation K V Unit where
  dflt := ()
  fromInner _ _ := ()
  fromLeaf _ _ := ()

end Bpt
