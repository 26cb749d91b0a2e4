import Verif.AugSpec
import Verif.Model.Augment
import Verif.Model.Bulk
import Verif.Model.Cursor
import Verif.Model.Iter

/-!
# Vocabulary of the property statements: calls, histories, reachable maps, observed content

Everything here only mentions the public functions of the model and the specification.
-/

namespace Bpt
variable {K V A : Type} [LinearOrder K]

/-! ## Histories of calls, each compared with the specification -/

/-- A call of the map API. `getMut k f` is `get_mut(k)` followed by applying `f` to the value through
the returned reference; `iter n` / `iterBack n` are `n` calls of `next` / `next_back` on a fresh
`iter()`. Cursors are arbitrary: any key, any hints. -/
inductive Call (K V : Type) where
  | insert (k : K) (v : V)
  | remove (k : K)
  | get (k : K)
  | getMut (k : K) (f : V → V)
  | first
  | last
  | len
  | isEmpty
  | iter (n : Nat)
  | iterBack (n : Nat)
  | cursorNext (c : Cursor K)
  | cursorPrev (c : Cursor K)
  | cursorValue (c : Cursor K)
  | getCursor (k : K)
  | clear

/-- What a call returns. A cursor is shown by its key. -/
inductive Answer (K V : Type) where
  | value (o : Option V)
  | entry (o : Option (K × V))
  | number (n : Nat)
  | flag (b : Bool)
  | entries (os : List (Option (K × V)))
  | keyValue (k : K) (o : Option V)
  | done
deriving DecidableEq

/-- A call on the tree. -/
def Tree.call [Augmentation K V A] (t : Tree K V A) : Call K V → Res (Answer K V × Tree K V A)
  | .insert k v => do let (o, t) ← t.insert k v; return (.value o, t)
  | .remove k => do let (o, t) ← t.remove k; return (.value o, t)
  | .get k => do let (o, t) ← t.get k; return (.value o, t)
  | .getMut k f => do let (o, t) ← t.getMut k f; return (.value o, t)
  | .first => do let o ← t.first; return (.entry o, t)
  | .last => do let o ← t.last; return (.entry o, t)
  | .len => return (.number t.len, t)
  | .isEmpty => return (.flag t.isEmpty, t)
  | .iter n => do
    let it ← t.iter
    let r ← it.runCalls t (List.replicate n .front)
    return (.entries (r.map (·.1)), t)
  | .iterBack n => do
    let it ← t.iter
    let r ← it.runCalls t (List.replicate n .back)
    return (.entries (r.map (·.1)), t)
  | .cursorNext c => do
    let o ← c.nextWithValue t
    return (.entry (o.map (fun p => (p.1.k, p.2))), t)
  | .cursorPrev c => do
    let o ← c.prevWithValue t
    return (.entry (o.map (fun p => (p.1.k, p.2))), t)
  | .cursorValue c => do let o ← c.value t; return (.value o, t)
  | .getCursor k => do
    match ← t.getCursor k with
    | some (c, v) => return (.keyValue c.k v, t)
    | none => return (.done, t)
  | .clear => return (.done, t.clear)

/-- A sequence of calls on the tree. -/
def Tree.run [Augmentation K V A] (t : Tree K V A) :
    List (Call K V) → Res (List (Answer K V) × Tree K V A)
  | [] => return ([], t)
  | c :: cs => do
    let (a, t) ← t.call c
    let (as, t) ← Tree.run t cs
    return (a :: as, t)

/-- The same call on a sorted association list. -/
def Spec.call (l : List (K × V)) : Call K V → Answer K V × List (K × V)
  | .insert k v => (.value (lookup k l), upsert k v l)
  | .remove k => (.value (lookup k l), erase k l)
  | .get k => (.value (lookup k l), l)
  | .getMut k f => (.value (lookup k l), modify k f l)
  | .first => (.entry l.head?, l)
  | .last => (.entry l.getLast?, l)
  | .len => (.number l.length, l)
  | .isEmpty => (.flag l.isEmpty, l)
  | .iter n => (.entries ((List.range n).map (fun i => l[i]?)), l)
  | .iterBack n => (.entries ((List.range n).map (fun i => l.reverse[i]?)), l)
  | .cursorNext c => (.entry (succ c.k l), l)
  | .cursorPrev c => (.entry (pred c.k l), l)
  | .cursorValue c => (.value (lookup c.k l), l)
  | .getCursor k => (.keyValue k (lookup k l), l)
  | .clear => (.done, [])

/-- The same sequence of calls on a sorted association list. -/
def Spec.run (l : List (K × V)) : List (Call K V) → List (Answer K V) × List (K × V)
  | [] => ([], l)
  | c :: cs => ((Spec.call l c).1 :: (Spec.run (Spec.call l c).2 cs).1,
      (Spec.run (Spec.call l c).2 cs).2)

/-! ## Reachable maps -/

variable [Augmentation K V A]

/-- The maps that can be obtained through the API from a map satisfying `start`. `upd` says whether
values may be changed through `get_mut` and `get_mut_by_augmentation` (they bypass the
augmentation). Searches may use any search augmentation whatever, also one that answers positions its
slices do not have: such a call does not return. A map never
holds `2^64` items (`len` is a `usize`). -/
inductive Reach (start : Tree K V A → Prop) (upd : Prop) : Tree K V A → Prop
  | start {t} : start t → t.len < 2 ^ 64 → Reach start upd t
  | insert {t t' k v o} : Reach start upd t → t.len + 1 < 2 ^ 64 → t.insert k v = .ok (o, t') →
      Reach start upd t'
  | remove {t t' k o} : Reach start upd t → t.remove k = .ok (o, t') → Reach start upd t'
  | get {t t' k o} : Reach start upd t → t.get k = .ok (o, t') → Reach start upd t'
  | getMut {t t' k f o} : upd → Reach start upd t → t.getMut k f = .ok (o, t') → Reach start upd t'
  | clear {t} : Reach start upd t → Reach start upd t.clear
  | removeBy {t t'} {Q : Type} [SearchAugmentation K V A Q] {q : Q} {o} : Reach start upd t → t.removeByAugmentation q = .ok (o, t') → Reach start upd t'
  | getMutBy {t t'} {Q : Type} [SearchAugmentation K V A Q] {q : Q} {f o} : upd →
      Reach start upd t → t.getMutByAugmentation q f = .ok (o, t') →
      Reach start upd t'

/-- Maps obtained from an empty one. -/
def Reachable (t : Tree K V A) : Prop := Reach (· = Tree.new) True t

/-- Maps obtained from an empty one without changing values through mutable references. -/
def ReachableNoMut (t : Tree K V A) : Prop := Reach (· = Tree.new) False t

/-- Maps obtained by bulk loading sorted data (`from_iter` is a special case). -/
def Loaded (t : Tree K V A) : Prop :=
  ∃ data : List (K × V), data.Pairwise (fun a b => a.1 ≤ b.1) ∧ Tree.bulkLoad data = .ok t

/-- Maps obtained from a bulk-loaded (or empty) one. -/
def ReachableBulk (t : Tree K V A) : Prop := Reach Loaded True t

/-- Maps obtained from a bulk-loaded (or empty) one without changing values through mutable
references. -/
def ReachableBulkNoMut (t : Tree K V A) : Prop := Reach Loaded False t

omit [Augmentation K V A] in
/-- The content of a map as observed through `get`: the entries `l`, in key order. -/
def Shows (t : Tree K V A) (l : List (K × V)) : Prop :=
  Spec.Sorted l ∧ ∀ k, ∃ t', t.get k = .ok (Spec.lookup k l, t')

end Bpt
