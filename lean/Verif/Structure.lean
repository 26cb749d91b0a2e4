import Verif.History
import Verif.Model.Visit

/-!
# Specification: a tree as `descend_visit` lets a visitor explore it

No ids, no links, no store: just nested nodes.
-/

namespace Bpt
variable {K V A : Type}

/-- A leaf shows its items; an inner node shows its keys and the augmentations of its children. -/
inductive STree (K V A : Type) where
  | leaf (items : List (K × V))
  | node (keys : List K) (augs : List A) (kids : List (STree K V A))

namespace STree

mutual
/-- The items from left to right. -/
def items : STree K V A → List (K × V)
  | leaf d => d
  | node _ _ kids => itemsAll kids
/-- The items of several trees. -/
def itemsAll : List (STree K V A) → List (K × V)
  | [] => []
  | c :: cs => c.items ++ itemsAll cs
end

mutual
/-- What a visitor gets: it sees the keys and augmentations of the root and picks a child, stops, or
finishes; in a leaf it sees the keys and values. Picking a child that does not exist is an error of
the visitor. -/
def visit {σ R : Type} (v : Visitor K V A σ R) (st : σ) : STree K V A → Res (Option R)
  | leaf d => .ok (v.visitLeaf st (d.map (·.1)) (d.map (·.2)))
  | node keys augs kids =>
    match v.visitInner st keys augs with
    | (.goDown i, st') => visitNth v st' i kids
    | (.cancel, _) => .ok none
    | (.complete r, _) => .ok (some r)
/-- Visit the child with index `i`. -/
def visitNth {σ R : Type} (v : Visitor K V A σ R) (st : σ) (i : Nat) :
    List (STree K V A) → Res (Option R)
  | [] => .error .panic
  | c :: cs => match i with
    | 0 => c.visit v st
    | i + 1 => visitNth v st i cs
end

/-- Every path from the root to a leaf passes exactly `h` inner nodes. -/
inductive LeavesAt : Nat → STree K V A → Prop
  | leaf {d} : LeavesAt 0 (leaf d)
  | node {h ks as kids} : (∀ c ∈ kids, LeavesAt h c) → LeavesAt (h + 1) (node ks as kids)

/-- No node has more than 64 keys; an inner node has one more child than keys and one augmentation
per child. -/
inductive Fits : STree K V A → Prop
  | leaf {d} : d.length ≤ 64 → Fits (leaf d)
  | node {ks as kids} : ks.length ≤ 64 → kids.length = ks.length + 1 → as.length = ks.length + 1 →
      (∀ c ∈ kids, Fits c) → Fits (node ks as kids)

/-- Every node has at least 16 keys, except that a root may have fewer (an inner root at least 1). -/
inductive Filled : (root : Bool) → STree K V A → Prop
  | leaf {root d} : (root = false → 16 ≤ d.length) → Filled root (leaf d)
  | node {root ks as kids} : 1 ≤ ks.length → (root = false → 16 ≤ ks.length) →
      (∀ c ∈ kids, Filled false c) → Filled root (node ks as kids)

/-- The same for every node that is not on the rightmost path. Leaves below the root are not empty. -/
inductive FilledOffRight : (root : Bool) → STree K V A → Prop
  | leaf {root d} : (root = false → d ≠ []) → FilledOffRight root (leaf d)
  | node {root ks as kids} : (root = true → 1 ≤ ks.length) → (∀ c ∈ kids.dropLast, Filled false c) →
      (∀ c ∈ kids.getLast?, FilledOffRight false c) → FilledOffRight root (node ks as kids)

/-- Search-tree order: items in key order, and the key between two children separates them. -/
inductive Ordered [LinearOrder K] : STree K V A → Prop
  | leaf {d} : Spec.Sorted d → Ordered (leaf d)
  | node {ks : List K} {as : List A} {kids : List (STree K V A)} : ks.Pairwise (· < ·) →
      (∀ (i : Nat) (k : K) (c : STree K V A), ks[i]? = some k → kids[i]? = some c →
        ∀ e ∈ c.items, e.1 < k) →
      (∀ (i : Nat) (k : K) (c : STree K V A), ks[i]? = some k → kids[i + 1]? = some c →
        ∀ e ∈ c.items, k ≤ e.1) →
      (∀ c ∈ kids, Ordered c) → Ordered (node ks as kids)

/-- The augmentation computed from the root node. -/
def aug [Augmentation K V A] : STree K V A → A
  | leaf d => leafOf A d
  | node ks as _ => Augmentation.fromInner V ks as

/-- Every augmentation shown by an inner node is the one computed from the child. -/
inductive InSync [Augmentation K V A] : STree K V A → Prop
  | leaf {d} : InSync (leaf d)
  | node {ks as kids} : as = kids.map aug → (∀ c ∈ kids, InSync c) → InSync (node ks as kids)

end STree

/-- No visitor can tell `t` from the nested tree `s`. -/
def Explored (t : Tree K V A) (s : STree K V A) : Prop :=
  ∀ (σ R : Type) (v : Visitor K V A σ R) (st : σ), t.descendVisit v st = s.visit v st

end Bpt
