import Verif.Model.BulkLedger
import Verif.Model.Crash
import Verif.OwnershipSpec

/-!
# Vocabulary for bulk loads with arbitrary `==`
-/

namespace Bpt
variable {K V A : Type}

/-- The `i`-th item is followed by one that `==` called equal to it. -/
def Spec.superseded (eq : Nat → K → K → Bool) (data : List (K × V)) (i : Nat) (x : K × V) : Bool :=
  match data[i + 1]? with
  | some y => eq i x.1 y.1
  | none => false

/-- The items that are not followed by one that `==` called equal, in their order. -/
def Spec.survivors (eq : Nat → K → K → Bool) (data : List (K × V)) : List (K × V) :=
  (data.zipIdx.filter (fun p => !Spec.superseded eq data p.2 p.1)).map (·.1)

/-- The other items. -/
def Spec.replaced (eq : Nat → K → K → Bool) (data : List (K × V)) : List (K × V) :=
  (data.zipIdx.filter (fun p => Spec.superseded eq data p.2 p.1)).map (·.1)

/-- The number of nodes other than the root in a tree with `m` leaves in which the nodes of each level
are grouped by 65 from the left under nodes of the next level, until one is left. -/
def Spec.belowRoot (m : Nat) : Nat := if m ≤ 1 then 0 else m + Spec.belowRoot ((m + 64) / 65)

/-- The sizes of the groups when `n` things are put into groups of `c` from the left. -/
def Spec.groupSizes (c n : Nat) : List Nat :=
  List.replicate (n / c) c ++ (if n % c = 0 then [] else [n % c])

/-- The calls of `from_inner` that make the levels above a level of `m` nodes: a group of `c` nodes gets a
parent with `c - 1` keys. -/
def Spec.innerFolds (m : Nat) : List Callback :=
  if m ≤ 1 then []
  else (Spec.groupSizes 65 m).map (fun c => .fromInner (c - 1) c) ++ Spec.innerFolds ((m + 64) / 65)

/-- The calls of `from_leaf` and `from_inner` that make a tree of `n` items from leaves of 64 items: once
for each node, and once more for the root, which is the node made last. -/
def Spec.loadFolds (n : Nat) : List Callback :=
  let made := (Spec.groupSizes 64 n).map .fromLeaf ++ Spec.innerFolds ((n + 63) / 64)
  made ++ made.getLast?.toList

/-- The values over the life of a map that begins with `bulk_load`. The items that do not get into the
map are destroyed. -/
def loadedLife (A : Type) [Augmentation K V A] (eq : Nat → K → K → Bool) (data : List (K × V))
    (cs : List (Answers K × UCall K V)) (e : Ending) : Res (Ledger V) := do
  let t : Tree K V A ← Tree.bulkLoadU eq data
  let s ← t.life cs e
  return ⟨data.map (·.2) ++ s.given, s.back, (dedupU eq 0 data).2.map (·.2) ++ s.destroyed⟩

/-- Keys and augmentations over the life of a map that begins with `bulk_load`. -/
def wholeLoadedLife (A : Type) [Augmentation K V A] (eq : Nat → K → K → Bool) (data : List (K × V))
    (cs : List (Answers K × UCall K V)) (e : Ending) : Logged K A (Books K A) := do
  let t ← (Tree.bulkLoadL eq data : Logged K A (Tree K V A))
  let b ← t.lifeL cs e
  return { b with given := data.map (·.1) ++ b.given }

end Bpt
