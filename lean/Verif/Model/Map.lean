import Verif.Model.Iter
import Verif.Model.Bulk
import Verif.Model.Visit
import Verif.Model.Augment

/-!
# `BPlusTreeMap` (src/map.rs)

Every method forwards to the tree in the field `inner`. As in the rest of the model a `&mut self` method
returns the new map, and `get_mut` takes the change that is made through the returned reference.
-/

namespace Bpt
variable {K V A : Type}

/-- `BPlusTreeMap`, src/map.rs:10-12. -/
structure BMap (K V A : Type) where
  inner : Tree K V A

namespace BMap
variable [Augmentation K V A]

/-- `BPlusTreeMap::new` and `default`, src/map.rs:14-36. -/
def new : BMap K V A := { inner := Tree.new }

/-- `BPlusTreeMap::len`, src/map.rs:38-42. -/
def len (m : BMap K V A) : Nat := m.inner.len

/-- `BPlusTreeMap::is_empty`, src/map.rs:44-57. It tests `len`, where `BPlusTree` has its own test. -/
def isEmpty (m : BMap K V A) : Bool := decide (m.len = 0)

section Ord
variable [LinearOrder K]

/-- `BPlusTreeMap::insert`, src/map.rs:59-75. -/
def insert (m : BMap K V A) (k : K) (v : V) : Res (Option V × BMap K V A) := do
  let (o, t) ← m.inner.insert k v
  return (o, { inner := t })

/-- `BPlusTreeMap::get`, src/map.rs:77-95. The map is returned as well because the cached leaf may
change behind the shared reference. -/
def get (m : BMap K V A) (k : K) : Res (Option V × BMap K V A) := do
  let (o, t) ← m.inner.get k
  return (o, { inner := t })

/-- `BPlusTreeMap::get_mut`, src/map.rs:97-114. -/
def getMut (m : BMap K V A) (k : K) (f : V → V) : Res (Option V × BMap K V A) := do
  let (o, t) ← m.inner.getMut k f
  return (o, { inner := t })

/-- `BPlusTreeMap::remove`, src/map.rs:116-134. -/
def remove (m : BMap K V A) (k : K) : Res (Option V × BMap K V A) := do
  let (o, t) ← m.inner.remove k
  return (o, { inner := t })

/-- `FromIterator::from_iter`, src/map.rs:287-307: a stable sort by key, then `bulk_load`. -/
def fromIter (items : List (K × V)) : Res (BMap K V A) := do
  let t ← Tree.bulkLoad (items.mergeSort (fun a b => decide (a.1 ≤ b.1)))
  return { inner := t }

/-- `BPlusTreeMap::rank_by_augmentation`, src/map.rs:243-274. -/
def rankByAugmentation {R : Type} [RankAugmentation K V A R] (m : BMap K V A) (k : K) :
    Res (Except R R) := m.inner.rankByAugmentation k

end Ord

/-- `iter::Iter`, src/map.rs:314-316: the wrapped iterator. -/
structure MapIter (K V : Type) where
  inner : Iter K V

/-- `BPlusTreeMap::iter`, src/map.rs:136-159. -/
def iter (m : BMap K V A) : Res (MapIter K V) := do
  let it ← m.inner.iter
  return { inner := it }

/-- `Iter::next`, src/map.rs:326-329. -/
def MapIter.next (m : BMap K V A) (it : MapIter K V) : Res (Option (K × V) × MapIter K V) := do
  let (o, it) ← it.inner.next m.inner
  return (o, { inner := it })

/-- `Iter::next_back`, src/map.rs:332-336. -/
def MapIter.nextBack (m : BMap K V A) (it : MapIter K V) : Res (Option (K × V) × MapIter K V) := do
  let (o, it) ← it.inner.nextBack m.inner
  return (o, { inner := it })

/-- `Iter::size_hint`, src/map.rs:321-324: lower and upper bound. -/
def MapIter.sizeHint (it : MapIter K V) : Nat × Option Nat :=
  (it.inner.sizeHint, some it.inner.sizeHint)

/-- `ExactSizeIterator::len` of the wrapper, src/map.rs:338: the provided method of the standard
library asserts that the bounds of `size_hint` agree. -/
def MapIter.len (it : MapIter K V) : Res Nat :=
  if it.sizeHint.2 = some it.sizeHint.1 then .ok it.sizeHint.1 else .error .panic

/-- One call on the wrapped iterator. -/
def MapIter.call (m : BMap K V A) (it : MapIter K V) : Dir → Res (Option (K × V) × MapIter K V)
  | .front => it.next m
  | .back => it.nextBack m

/-- A schedule of calls on the wrapped iterator; each answer is paired with the `len()` after it. -/
def MapIter.runCalls (m : BMap K V A) (it : MapIter K V) :
    List Dir → Res (List (Option (K × V) × Nat))
  | [] => return []
  | d :: ds => do
    let (o, it) ← it.call m d
    let n ← it.len
    let rest ← MapIter.runCalls m it ds
    return (o, n) :: rest

/-- `BPlusTreeMap::root_augmentation`, src/map.rs:161-164. -/
def rootAugmentation (m : BMap K V A) : A := m.inner.rootAug

section Search
variable {Q : Type} [SearchAugmentation K V A Q]

/-- `BPlusTreeMap::get_by_augmentation`, src/map.rs:166-190. -/
def getByAugmentation (m : BMap K V A) (q : Q) : Res (Option (K × V)) := m.inner.getByAugmentation q

/-- `BPlusTreeMap::get_mut_by_augmentation`, src/map.rs:192-215. -/
def getMutByAugmentation (m : BMap K V A) (q : Q) (f : V → V) : Res (Option V × BMap K V A) := do
  let (o, t) ← m.inner.getMutByAugmentation q f
  return (o, { inner := t })

/-- `BPlusTreeMap::remove_by_augmentation`, src/map.rs:217-241. -/
def removeByAugmentation (m : BMap K V A) (q : Q) : Res (Option (K × V) × BMap K V A) := do
  let (o, t) ← m.inner.removeByAugmentation q
  return (o, { inner := t })

end Search

/-- `BPlusTreeMap::descend_visit`, src/map.rs:276-284. -/
def descendVisit {σ R : Type} (m : BMap K V A) (v : Visitor K V A σ R) (st : σ) : Res (Option R) :=
  m.inner.descendVisit v st

end BMap
end Bpt
