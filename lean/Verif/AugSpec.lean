import Verif.Spec

/-!
# Specification: classes of augmentations

What a user-supplied augmentation may be required to satisfy. Independent of the tree.
-/

namespace Bpt
open Spec
variable {K V A : Type}

/-- An augmentation that does not look at values. -/
def KeyOnly (K V A : Type) [Augmentation K V A] : Prop :=
  ∀ (ks : List K) (vs vs' : List V), vs.length = vs'.length →
    (Augmentation.fromLeaf ks vs : A) = Augmentation.fromLeaf ks vs'

/-- The indices a search augmentation returns are in range of the slices it was given. -/
structure SearchInRange (K V A : Type) {Q : Type} [SearchAugmentation K V A Q] : Prop where
  leaf : ∀ (q : Q) (d : List (K × V)) (i : Nat),
    SearchAugmentation.locateInLeaf A q (d.map (·.1)) (d.map (·.2)) = some i → i < d.length
  inner : ∀ (q : Q) (ks : List K) (as : List A) (i : Nat) (q' : Q),
    SearchAugmentation.locateInInner V q ks as = some (i, q') → i < as.length

/-- `from_leaf` of a list of items. -/
def leafOf (A : Type) [Augmentation K V A] (d : List (K × V)) : A :=
  Augmentation.fromLeaf (d.map (·.1)) (d.map (·.2))

/-- Computing the augmentation of an inner node from its children gives what `from_leaf` gives on
their concatenated items. -/
def Homomorphic (K V A : Type) [LinearOrder K] [Augmentation K V A] : Prop :=
  ∀ (ks : List K) (parts : List (List (K × V))), parts.length = ks.length + 1 →
    (∀ p ∈ parts, p ≠ []) → Sorted parts.flatten →
    Augmentation.fromInner V ks (parts.map (leafOf A)) = leafOf A parts.flatten

/-- Index of the item that covers offset `o` of the cumulative weight. -/
def wfind {α : Type} (wt : α → Nat) : List α → Nat → Option Nat
  | [], _ => none
  | x :: l, o => if o < wt x then some 0 else (wfind wt l (o - wt x)).map (· + 1)

/-- Index of the summand that covers offset `o`, with the offset inside it. -/
def wlocate : List Nat → Nat → Option (Nat × Nat)
  | [], _ => none
  | a :: as, o => if o < a then some (0, o) else (wlocate as (o - a)).map (fun p => (p.1 + 1, p.2))

/-- An augmentation that sums weights and searches by cumulative weight. -/
structure Weighted (K V A : Type) [Augmentation K V A] (wt : K × V → Nat) (val : A → Nat) :
    Prop where
  leafAug : ∀ d : List (K × V),
    val (Augmentation.fromLeaf (d.map (·.1)) (d.map (·.2))) = (d.map wt).sum
  innerAug : ∀ (ks : List K) (as : List A),
    val (Augmentation.fromInner V ks as) = (as.map val).sum

/-- … and its search. -/
structure WeightedSearch (K V A : Type) [SearchAugmentation K V A Nat] (wt : K × V → Nat)
    (val : A → Nat) : Prop where
  leafLoc : ∀ (q : Nat) (d : List (K × V)),
    SearchAugmentation.locateInLeaf A q (d.map (·.1)) (d.map (·.2)) = wfind wt d q
  innerLoc : ∀ (q : Nat) (ks : List K) (as : List A),
    SearchAugmentation.locateInInner V q ks as = wlocate (as.map val) q

end Bpt
