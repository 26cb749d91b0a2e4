import Verif.Model.Tree

/-!
# Vocabulary for the memory a map keeps

The store has a table of inner nodes and a table of leaves (`Vec<Option<Box<_>>>`,
src/tree/node_stores/vec_backed.rs:4-9): a slot with a node is an allocation of its own, an empty slot is
one pointer of the table.
-/

namespace Bpt
variable {K V A : Type}

/-- Number of inner nodes that are allocated. -/
def Store.allocatedInners (s : Store K V A) : Nat := s.inners.countP (·.isSome)

/-- Number of leaves that are allocated. -/
def Store.allocatedLeaves (s : Store K V A) : Nat := s.leaves.countP (·.isSome)

/-- How many inner nodes there are on the way from a node down to the first leaf. (The first argument
bounds the descent.) -/
def Store.levelsFrom (s : Store K V A) : Nat → NodeId → Nat
  | n + 1, .inner i =>
    match s.inners[i]? with
    | some (some x) =>
      match x.childs with
      | c :: _ => 1 + s.levelsFrom n c
      | [] => 1
    | _ => 0
  | _, _ => 0

/-- How many inner nodes can be reached from a node. (The first argument bounds the descent.) -/
def Store.reachFrom (s : Store K V A) : Nat → NodeId → Nat
  | n + 1, .inner i =>
    match s.inners[i]? with
    | some (some x) => 1 + (x.childs.map (s.reachFrom n)).sum
    | _ => 0
  | _, _ => 0

/-- The levels of inner nodes of the tree: 0 when the root is a leaf. A tree is never deeper than
`maxDepth` levels. -/
def Tree.levels (t : Tree K V A) : Nat := t.store.levelsFrom (maxDepth + 1) t.root

/-- The inner nodes that are part of the tree. -/
def Tree.innersInTree (t : Tree K V A) : Nat := t.store.reachFrom (maxDepth + 1) t.root

/-- How many merges of inner nodes, and of leaves, `statistic()` has counted. -/
def Tree.mergedInners (t : Tree K V A) : Nat := t.st.mergeWithLeftInner + t.st.mergeWithRightInner

@[inherit_doc Tree.mergedInners]
def Tree.mergedLeaves (t : Tree K V A) : Nat := t.st.mergeWithLeftLeaf + t.st.mergeWithRightLeaf

end Bpt
