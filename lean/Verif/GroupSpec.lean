import Mathlib.Data.Finset.Card
import Verif.Structure
import Verif.Model.Augment

/-!
# Specification of grouping (C25 to C29)

The group of a key is `FromRef.fromRef`, as in the code. The first part says what one expects. The
second part says by how much the code is off, in terms of the leaves a visitor sees.
-/

namespace Bpt
variable {K V A G : Type}

/-! ## What is expected -/

/-- The grouping respects the order of the keys. -/
def MonotoneGroups (K G : Type) [LinearOrder K] [LinearOrder G] [FromRef K G] : Prop :=
  ∀ a b : K, a ≤ b → (FromRef.fromRef a : G) ≤ FromRef.fromRef b

section
variable [LinearOrder G] [FromRef K G]

/-- The entries of group `g`, in key order. -/
def members (l : List (K × V)) (g : G) : List (K × V) :=
  l.filter (fun e => FromRef.fromRef e.1 = g)

/-- Every group that lies between two other stored groups has one member or at least 63. -/
def SparseGroups (G : Type) [LinearOrder G] [FromRef K G] (l : List (K × V)) : Prop :=
  ∀ a ∈ l, ∀ e ∈ l, ∀ b ∈ l, (FromRef.fromRef a.1 : G) < FromRef.fromRef e.1 →
    (FromRef.fromRef e.1 : G) < FromRef.fromRef b.1 →
    (members l (FromRef.fromRef e.1 : G)).length = 1 ∨ 63 ≤ (members l (FromRef.fromRef e.1 : G)).length

/-! ## What the code does -/

/-- The leaf in which a group begins. -/
def homeLeaf (leaves : List (List (K × V))) (g : G) : Option (List (K × V)) :=
  leaves.find? (fun leaf => decide (0 < (members leaf g).length))

/-- How many members a group has in the leaf in which it begins. -/
def sizeAtHome (leaves : List (List (K × V))) (g : G) : Nat :=
  match homeLeaf leaves g with
  | none => 0
  | some leaf => (members leaf g).length

/-- Of the entries of the leaf whose group lies strictly between that of the first entry and `g`, all but
one in each group. -/
def surplus (leaf : List (K × V)) (g : G) : Nat :=
  match leaf with
  | [] => 0
  | first :: _ =>
    let between := (leaf.map (fun e => (FromRef.fromRef e.1 : G))).filter
      (fun x => FromRef.fromRef first.1 < x ∧ x < g)
    between.length - between.toFinset.card

/-- By how much the code overestimates a group: the surplus in the leaf in which it begins. -/
def overcount (leaves : List (List (K × V))) (g : G) : Nat :=
  match homeLeaf leaves g with
  | none => 0
  | some leaf => surplus leaf g

/-- Does some leaf other than the last one end with an entry of the group? -/
def endsLeaf (leaves : List (List (K × V))) (g : G) : Bool :=
  leaves.dropLast.any (fun leaf => decide (leaf.getLast?.map (fun e => (FromRef.fromRef e.1 : G)) = some g))

end

namespace STree

mutual
/-- The leaves from left to right. -/
def leaves : STree K V A → List (List (K × V))
  | leaf d => [d]
  | node _ _ kids => leavesAll kids
/-- The leaves of several trees. -/
def leavesAll : List (STree K V A) → List (List (K × V))
  | [] => []
  | c :: cs => c.leaves ++ leavesAll cs
end

mutual
/-- Walk down to the leaf for `k`, collecting the leaves on the left of the path. At a node that is left
through its first child the collection is thrown away. -/
def rankSees [LinearOrder K] (k : K) (seen : List (List (K × V))) :
    STree K V A → List (List (K × V)) × List (K × V)
  | leaf d => (seen, d)
  | node keys _ kids =>
    let i := (keys.filter (fun x => x ≤ k)).length
    rankSeesNth k (if i = 0 then [] else seen ++ leavesAll (kids.take i)) i kids
/-- Go on in the child with index `i`. -/
def rankSeesNth [LinearOrder K] (k : K) (seen : List (List (K × V))) (i : Nat) :
    List (STree K V A) → List (List (K × V)) × List (K × V)
  | [] => (seen, [])
  | c :: cs => match i with
    | 0 => c.rankSees k seen
    | i + 1 => rankSeesNth k seen i cs
end

end STree
end Bpt
