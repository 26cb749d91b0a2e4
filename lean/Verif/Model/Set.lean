import Verif.Model.Iter
import Verif.Model.Bulk
import Verif.Model.Remove

/-!
# BPlusTreeSet (src/set.rs) and MergeIterInner (src/merge_iter.rs)
-/

namespace Bpt
variable {K : Type}

/-- `BPlusTreeSet`, src/set.rs:6-8. -/
abbrev TreeSet (K : Type) := Tree K Unit Unit

namespace TreeSet

/-- `new`, src/set.rs:26-32. -/
def new : TreeSet K := Tree.new

variable [LinearOrder K]

/-- `insert`, src/set.rs:83-85. -/
def insert (s : TreeSet K) (k : K) : Res (Bool × TreeSet K) := do
  let (o, s) ← Tree.insert s k ()
  return (o.isNone, s)

/-- `remove`, src/set.rs:100-106. -/
def remove (s : TreeSet K) (k : K) : Res (Bool × TreeSet K) := do
  let (o, s) ← Tree.remove s k
  return (o.isSome, s)

/-- `contains`, src/set.rs:121-127 (the cache may change). -/
def contains (s : TreeSet K) (k : K) : Res (Bool × TreeSet K) := do
  let (o, s) ← Tree.get s k
  return (o.isSome, s)

omit [LinearOrder K] in
/-- `first`, src/set.rs:163-165. -/
def first (s : TreeSet K) : Res (Option K) := do
  let o ← Tree.first s
  return o.map (·.1)

omit [LinearOrder K] in
/-- `last`, src/set.rs:183-185. -/
def last (s : TreeSet K) : Res (Option K) := do
  let o ← Tree.last s
  return o.map (·.1)

/-- `from_iter`, src/set.rs:246-252. -/
def fromIter (ks : List K) : Res (TreeSet K) :=
  Tree.fromIter (ks.map (fun k => (k, ())))

omit [LinearOrder K] in
/-- `iter::Iter::next`, src/set.rs:303-305. -/
def iterNext (s : TreeSet K) (it : Iter K Unit) : Res (Option K × Iter K Unit) := do
  let (o, it) ← it.next s
  return (o.map (·.1), it)

omit [LinearOrder K] in
/-- `len`, src/set.rs:50-52. -/
def len (s : TreeSet K) : Nat := Tree.len s

omit [LinearOrder K] in
/-- `is_empty`, src/set.rs:67-69. -/
def isEmpty (s : TreeSet K) : Bool := Tree.isEmpty s

omit [LinearOrder K] in
/-- `clear`, src/set.rs:143-145. -/
def clear (s : TreeSet K) : TreeSet K := Tree.clear s

omit [LinearOrder K] in
/-- A schedule of calls on `iter()`, src/set.rs:203-207, 295-312; each answer with the `size_hint`
after it. -/
def iterCalls (s : TreeSet K) (ds : List Dir) : Res (List (Option K × Nat)) := do
  let it ← Tree.iter s
  let rs ← it.runCalls s ds
  return rs.map (fun p => (p.1.map (·.1), p.2))

omit [LinearOrder K] in
/-- A schedule of calls on `into_iter()`, src/set.rs:275-279, 322-339. -/
def intoIterCalls (s : TreeSet K) (ds : List Dir) : Res (List (Option K × Nat)) := do
  let it ← Tree.intoIter s
  let (rs, _) ← it.runCalls ds
  return rs.map (fun p => (p.1.map (·.1), p.2))

end TreeSet

/-- `Peeked`, src/merge_iter.rs:18-21. -/
inductive Peeked (K : Type) where
  | a (k : K)
  | b (k : K)

/-- `MergeIterInner` over two set iterators, src/merge_iter.rs:9-13, i.e. `Union`,
src/set.rs:351. -/
structure Union (K : Type) where
  a : Iter K Unit
  b : Iter K Unit
  peeked : Option (Peeked K)

namespace Union

/-- `union`, src/set.rs:229-232, `MergeIterInner::new`, src/merge_iter.rs:53-55. -/
def new (sa sb : TreeSet K) : Res (Union K) := do
  let a ← Tree.iter sa
  let b ← Tree.iter sb
  return ⟨a, b, none⟩

variable [LinearOrder K]

omit [LinearOrder K] in
/-- The fetching part of `MergeIterInner::nexts`, src/merge_iter.rs:71-87. -/
def fetch (sa sb : TreeSet K) (u : Union K) :
    Res (Option K × Option K × Iter K Unit × Iter K Unit) :=
  match u.peeked with
  | some (.a next) => do
    let (bn, ib) ← TreeSet.iterNext sb u.b
    return (some next, bn, u.a, ib)
  | some (.b next) => do
    let (an, ia) ← TreeSet.iterNext sa u.a
    return (an, some next, ia, u.b)
  | none => do
    let (an, ia) ← TreeSet.iterNext sa u.a
    let (bn, ib) ← TreeSet.iterNext sb u.b
    return (an, bn, ia, ib)

/-- `MergeIterInner::nexts`, src/merge_iter.rs:64-95. -/
def nexts (sa sb : TreeSet K) (u : Union K) : Res ((Option K × Option K) × Union K) := do
  let (aNext, bNext, ia, ib) ← fetch sa sb u
  match aNext, bNext with
  | some a1, some b1 =>
    if a1 < b1 then return ((some a1, none), ⟨ia, ib, some (.b b1)⟩)
    else if b1 < a1 then return ((none, some b1), ⟨ia, ib, some (.a a1)⟩)
    else return ((some a1, some b1), ⟨ia, ib, none⟩)
  | an, bn => return ((an, bn), ⟨ia, ib, none⟩)

/-- `Union::next`, src/set.rs:362-365. -/
def next (sa sb : TreeSet K) (u : Union K) : Res (Option K × Union K) := do
  let ((an, bn), u) ← nexts sa sb u
  return (an.or bn, u)

omit [LinearOrder K] in
/-- `MergeIterInner::lens`, src/merge_iter.rs:98-107. -/
def lens (u : Union K) : Nat × Nat :=
  match u.peeked with
  | some (.a _) => (1 + u.a.sizeHint, u.b.sizeHint)
  | some (.b _) => (u.a.sizeHint, 1 + u.b.sizeHint)
  | none => (u.a.sizeHint, u.b.sizeHint)

omit [LinearOrder K] in
/-- `Union::size_hint`, src/set.rs:367-371: (lower bound, upper bound). -/
def sizeHint (u : Union K) : Nat × Nat :=
  (max u.lens.1 u.lens.2, u.lens.1 + u.lens.2)

/-- A number of `next` calls; each answer is paired with the `size_hint` reported before it. -/
def runNext (sa sb : TreeSet K) : Nat → Union K → Res (List (Option K × (Nat × Nat)))
  | 0, _ => return []
  | n + 1, u => do
    let (o, u') ← next sa sb u
    let rest ← runNext sa sb n u'
    return (o, u.sizeHint) :: rest

/-- The iterator after `n` calls of `next`. -/
def advance (sa sb : TreeSet K) : Nat → Union K → Res (Union K)
  | 0, u => return u
  | n + 1, u => do
    let (_, u) ← next sa sb u
    advance sa sb n u

/-- `Union::min`, src/set.rs:373-375. -/
def min (sa sb : TreeSet K) (u : Union K) : Res (Option K) := do
  let (o, _) ← next sa sb u
  return o

omit [LinearOrder K] in
/-- `Clone` of `Union`, src/set.rs:353-357, and of `MergeIterInner`, src/merge_iter.rs:23-35. The iterators over
the sets are cloned field by field (src/tree/iterator.rs:8-16); a peeked element is a reference. -/
def clone (u : Union K) : Union K :=
  ⟨u.a, u.b, match u.peeked with
    | some (.a k) => some (.a k)
    | some (.b k) => some (.b k)
    | none => none⟩

end Union
end Bpt
