import Verif.Model.Leaf
import Verif.Model.Inner

/-!
# The node store (src/tree/node_stores/vec_backed.rs)
-/

namespace Bpt

/-- `NodeStoreVec`, src/tree/node_stores/vec_backed.rs:4-9. A slot holding `none` is a node that was
taken out (freed) or reserved and not yet assigned. `cached` is the atomic `cached_leaf`; the
initial `usize::MAX` is `none` (any value that is not the index of a slot behaves the same). -/
structure Store (K V A : Type) where
  inners : List (Option (Inner K A))
  leaves : List (Option (Leaf K V))
  cached : Option Nat
deriving DecidableEq

namespace Store
variable {K V A : Type}

/-- `NodeStoreVec::default`, vec_backed.rs:23-31. -/
def empty : Store K V A := ⟨[], [], none⟩

/-- `new_empty_leaf`, vec_backed.rs:115-120. -/
def newEmptyLeaf (s : Store K V A) : Store K V A × Nat :=
  ({ s with leaves := s.leaves ++ [some Leaf.empty] }, s.leaves.length)

/-- `add_inner`, vec_backed.rs:122-126. -/
def addInner (s : Store K V A) (n : Inner K A) : Store K V A × Nat :=
  ({ s with inners := s.inners ++ [some n] }, s.inners.length)

/-- `get_inner` / `get_mut_inner` / `get_mut_inner_ptr`, vec_backed.rs:129-139, 147-157, 211-222:
unchecked. -/
def getInner (s : Store K V A) (id : Nat) : Res (Inner K A) :=
  match s.inners[id]? with
  | some (some n) => .ok n
  | _ => .error .ub

/-- Writing through the `&mut InnerNode` obtained from `get_mut_inner(id)`. -/
def setInner (s : Store K V A) (id : Nat) (n : Inner K A) : Store K V A :=
  { s with inners := s.inners.set id (some n) }

/-- `take_inner`, vec_backed.rs:159-161: checked index and `unwrap`. -/
def takeInner (s : Store K V A) (id : Nat) : Res (Inner K A × Store K V A) :=
  match s.inners[id]? with
  | some (some n) => .ok (n, { s with inners := s.inners.set id none })
  | _ => .error .panic

/-- `reserve_leaf`, vec_backed.rs:167-171. -/
def reserveLeaf (s : Store K V A) : Store K V A × Nat :=
  ({ s with leaves := s.leaves ++ [none] }, s.leaves.length)

/-- `get_leaf` / `get_mut_leaf`, vec_backed.rs:174-184, 192-200: unchecked. -/
def getLeaf (s : Store K V A) (id : Nat) : Res (Leaf K V) :=
  match s.leaves[id]? with
  | some (some l) => .ok l
  | _ => .error .ub

/-- `try_get_leaf`, vec_backed.rs:186-189: checked. -/
def tryGetLeaf (s : Store K V A) (id : Nat) : Option (Leaf K V) :=
  match s.leaves[id]? with
  | some (some l) => some l
  | _ => none

/-- Writing through the `&mut LeafNode` obtained from `get_mut_leaf(id)`. -/
def setLeaf (s : Store K V A) (id : Nat) (l : Leaf K V) : Store K V A :=
  { s with leaves := s.leaves.set id (some l) }

/-- `take_leaf`, vec_backed.rs:202-204: checked index and `unwrap`. -/
def takeLeaf (s : Store K V A) (id : Nat) : Res (Leaf K V × Store K V A) :=
  match s.leaves[id]? with
  | some (some l) => .ok (l, { s with leaves := s.leaves.set id none })
  | _ => .error .panic

/-- `assign_leaf`, vec_backed.rs:206-208: checked index. -/
def assignLeaf (s : Store K V A) (id : Nat) (l : Leaf K V) : Res (Store K V A) :=
  if id < s.leaves.length then .ok (s.setLeaf id l) else .error .panic

/-- `cache_leaf`, vec_backed.rs:224-227. -/
def cacheLeaf (s : Store K V A) (id : Nat) : Store K V A := { s with cached := some id }

/-- `try_cache` with the loaded value of the atomic as an argument, vec_backed.rs:229-246. -/
def tryCacheAt [LinearOrder K] (s : Store K V A) (cached : Option Nat) (k : K) :
    Res (Option Nat) :=
  match cached with
  | none => return none
  | some id =>
    match s.tryGetLeaf id with
    | none => return none
    | some l => do
      let b ← l.inRange k
      return if b then some id else none

/-- `try_cache`, vec_backed.rs:229-246. -/
def tryCache [LinearOrder K] (s : Store K V A) (k : K) : Res (Option Nat) :=
  s.tryCacheAt s.cached k

end Store
end Bpt
