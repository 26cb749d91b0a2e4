import Verif.Model.Tree

/-!
# Trees on a store that was used before

`BPlusTree::new` takes any store, `node_store()` hands out a reference to the store of a tree, and
`NodeStoreVec` is `Clone`: `BPlusTree::new(tree.node_store().clone())` is a tree on a used store. (The clone
of a store has the same nodes in the same slots and the same `cached_leaf`, vec_backed.rs:11-21; C40 and C57
are about the clone itself, so here the store is taken as it is.)
-/

namespace Bpt
variable {K V A : Type} [Augmentation K V A]

/-- `BPlusTree::new`, src/tree/mod.rs:100-110. -/
def Tree.newOn (s : Store K V A) : Tree K V A :=
  let (s, id) := s.newEmptyLeaf
  { root := .leaf id, rootAug := Augmentation.dflt K V, len := 0, store := s, st := {} }

end Bpt
