import Verif.Structure
import Verif.LoadSpec

/-!
# Vocabulary: the tree a bulk load makes

A list is cut into pieces from the left. The pieces of the items are the leaves, the pieces of a level
are the nodes of the level above. `Verif/Structure.lean` has the nested trees `STree`.
-/

namespace Bpt
variable {K V A : Type}

/-- `ps` is `l` cut into pieces of `n` from the left; the last piece may be smaller, none is empty. A
piece is given by its first element and the others. -/
structure CutInto {α : Type} (n : Nat) (l : List α) (ps : List (α × List α)) : Prop where
  all : ps.flatMap (fun p => p.1 :: p.2) = l
  full : ∀ p ∈ ps.dropLast, p.2.length + 1 = n
  fits : ∀ p ∈ ps, p.2.length + 1 ≤ n

/-- A leaf with the items of a piece, and its first key. -/
def leafOver (p : (K × V) × List (K × V)) : STree K V A × K := (.leaf (p.1 :: p.2), p.1.1)

variable [Augmentation K V A]

/-- A node over the trees of a piece, and its first key: between two children stands the first key of
the right one, and each child comes with its augmentation. -/
def nodeOver (p : (STree K V A × K) × List (STree K V A × K)) : STree K V A × K :=
  (.node (p.2.map (·.2)) ((p.1 :: p.2).map (fun c => c.1.aug)) ((p.1 :: p.2).map (·.1)), p.1.2)

/-- The tree over a level: cut it into pieces of 65 as long as it has more than one tree. -/
inductive PackedOver : List (STree K V A × K) → STree K V A → Prop
  | root {p : STree K V A × K} : PackedOver [p] p.1
  | layer {l : List (STree K V A × K)} {ps : List ((STree K V A × K) × List (STree K V A × K))}
      {s : STree K V A} : CutInto 65 l ps → 2 ≤ l.length → PackedOver (ps.map nodeOver) s →
      PackedOver l s

/-- The packed tree with the given items: leaves of 64 items, nodes of 65 children. -/
inductive Packed : List (K × V) → STree K V A → Prop
  | empty : Packed [] (.leaf [])
  | some {items : List (K × V)} {ps : List ((K × V) × List (K × V))} {s : STree K V A} :
      CutInto 64 items ps → PackedOver (ps.map leafOver) s → Packed items s

end Bpt
