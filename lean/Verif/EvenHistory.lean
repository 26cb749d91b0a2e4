import Verif.History

/-!
# Vocabulary: bulk loads of even sizes

A bulk load puts 64 items into a leaf and 65 nodes under a parent, from the left. If a last parent gets a single
child, a later removal can panic (C19). This file says when that is not so, and which maps are obtained from such
loads.
-/

namespace Bpt

/-- Number of nodes one layer above `n` nodes: chunks of 65 children. -/
def parents (n : Nat) : Nat := (n + 64) / 65

/-- Number of leaves for `n` items: chunks of 64 items. -/
def leavesFor (n : Nat) : Nat := (n + 63) / 64

/-- When `n` nodes are grouped into chunks of 65, and the chunks again, up to a single root, no chunk
consists of a single node. -/
inductive EvenlyGrouped : Nat → Prop
  | root {n} : n ≤ 1 → EvenlyGrouped n
  | layer {n} : n % 65 ≠ 1 → EvenlyGrouped (parents n) → EvenlyGrouped n

variable {K V A : Type} [LinearOrder K] [Augmentation K V A]

/-- Maps obtained by bulk loading sorted data with an even number of distinct keys (always so up to 4160). -/
def EvenlyLoaded (t : Tree K V A) : Prop :=
  ∃ data : List (K × V), data.Pairwise (fun a b => a.1 ≤ b.1) ∧
    EvenlyGrouped (leavesFor (Spec.insertAll [] data).length) ∧ Tree.bulkLoad data = .ok t

/-- Maps obtained from an empty one, or from a bulk-loaded one of even size. -/
def ReachableEven (t : Tree K V A) : Prop := Reach EvenlyLoaded True t

end Bpt
