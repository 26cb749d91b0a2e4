import Verif.Structure

/-!
# Specification: a search through a nested tree

What `get_by_augmentation` does on a tree without ids: a user's search names a child at each inner node and an item in
the leaf. Its indices need not exist.
-/

namespace Bpt
variable {K V A Q : Type} [SearchAugmentation K V A Q]

/-- Where a search ends. -/
inductive SearchEnd (K V : Type) where
  /-- The search gave up. -/
  | nothing
  /-- It named this item. -/
  | entry (e : K × V)
  /-- It named an item that the leaf does not have. -/
  | noItem
  /-- It named a child that the inner node does not have. -/
  | noChild

namespace STree

mutual
/-- The search shows each node on its way to the user's code and follows the index it gets. -/
def search (q : Q) : STree K V A → SearchEnd K V
  | leaf d =>
    match SearchAugmentation.locateInLeaf A q (d.map (·.1)) (d.map (·.2)) with
    | none => .nothing
    | some i => match d[i]? with
      | some e => .entry e
      | none => .noItem
  | node keys augs kids =>
    match SearchAugmentation.locateInInner V q keys augs with
    | none => .nothing
    | some (i, q') => searchNth q' i kids
/-- Go on in the child with index `i`. -/
def searchNth (q : Q) (i : Nat) : List (STree K V A) → SearchEnd K V
  | [] => .noChild
  | c :: cs => match i with
    | 0 => c.search q
    | i + 1 => searchNth q i cs
end

end STree
end Bpt
