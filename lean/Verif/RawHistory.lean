import Verif.EvenHistory
import Verif.Model.RawCursor

/-!
# Vocabulary for the tree on raw node arrays: calls, histories, reachable trees, observed content

As `Verif/History.lean`, for `Model/RawTree.lean`, `RawRemove.lean` and `RawCursor.lean`. The calls, the
answers and the specification `Spec.call`, `Spec.run` are those of `Verif/History.lean`.
-/

namespace Bpt
namespace Raw
variable {K V A : Type} [LinearOrder K]

/-- A call on the tree. -/
def Tree.call [Augmentation K V A] (t : Tree K V A) : Call K V → Res (Answer K V × Tree K V A)
  | .insert k v => do let (o, t) ← t.insert k v; return (.value o, t)
  | .remove k => do let (o, t) ← t.remove k; return (.value o, t)
  | .get k => do let (o, t) ← t.get k; return (.value o, t)
  | .getMut k f => do let (o, t) ← t.getMut k f; return (.value o, t)
  | .first => do let o ← t.first; return (.entry o, t)
  | .last => do let o ← t.last; return (.entry o, t)
  | .len => return (.number t.len, t)
  | .isEmpty => return (.flag t.isEmpty, t)
  | .iter n => do
    let it ← t.iter
    let r ← it.runCalls t (List.replicate n .front)
    return (.entries (r.map (·.1)), t)
  | .iterBack n => do
    let it ← t.iter
    let r ← it.runCalls t (List.replicate n .back)
    return (.entries (r.map (·.1)), t)
  | .cursorNext c => do
    let o ← cursorNextWithValue c t
    return (.entry (o.map (fun p => (p.1.k, p.2))), t)
  | .cursorPrev c => do
    let o ← cursorPrevWithValue c t
    return (.entry (o.map (fun p => (p.1.k, p.2))), t)
  | .cursorValue c => do let o ← cursorValue c t; return (.value o, t)
  | .getCursor k => do
    match ← t.getCursor k with
    | some (c, v) => return (.keyValue c.k v, t)
    | none => return (.done, t)
  | .clear => return (.done, t.clear)

/-- A sequence of calls on the tree. -/
def Tree.run [Augmentation K V A] (t : Tree K V A) :
    List (Call K V) → Res (List (Answer K V) × Tree K V A)
  | [] => return ([], t)
  | c :: cs => do
    let (a, t) ← t.call c
    let (as, t) ← Tree.run t cs
    return (a :: as, t)

/-- The trees that can be obtained through the API from an empty one, or from a bulk-loaded one of even
size. -/
inductive Reachable [Augmentation K V A] : Tree K V A → Prop
  | new : Reachable Tree.new
  | load {t} {data : List (K × V)} : data.Pairwise (fun a b => a.1 ≤ b.1) →
      EvenlyGrouped (leavesFor (Spec.insertAll [] data).length) → Tree.bulkLoad data = .ok t →
      t.len < 2 ^ 64 → Reachable t
  | insert {t t' k v o} : Reachable t → t.len + 1 < 2 ^ 64 → t.insert k v = .ok (o, t') →
      Reachable t'
  | remove {t t' k o} : Reachable t → t.remove k = .ok (o, t') → Reachable t'
  | get {t t' k o} : Reachable t → t.get k = .ok (o, t') → Reachable t'
  | getMut {t t' k f o} : Reachable t → t.getMut k f = .ok (o, t') → Reachable t'
  | clear {t} : Reachable t → Reachable t.clear
  | clone {t t'} : Reachable t → t.clone = .ok t' → Reachable t'
  | removeBy {t t'} {Q : Type} [SearchAugmentation K V A Q] {q : Q} {o} : SearchInRange K V A →
      Reachable t → t.removeByAugmentation q = .ok (o, t') → Reachable t'
  | getMutBy {t t'} {Q : Type} [SearchAugmentation K V A Q] {q : Q} {f o} :
      SearchInRange K V A → Reachable t → t.getMutByAugmentation q f = .ok (o, t') → Reachable t'

/-- The content of a tree as observed through `get`: the entries `l`, in key order. -/
def Shows (t : Tree K V A) (l : List (K × V)) : Prop :=
  Spec.Sorted l ∧ ∀ k, ∃ t', t.get k = .ok (Spec.lookup k l, t')

omit [LinearOrder K] in
/-- `Drop for BPlusTree`, src/tree/mod.rs:818-822: `into_iter()`, dropped at once. Returns the items
dropped and the iterator whose fields (the node store) are dropped afterwards. -/
def Tree.drop (t : Tree K V A) : Res (List (K × V) × IntoIter K V A) := do
  let it ← t.intoIter
  it.drop

omit [LinearOrder K] in
/-- No slot of any leaf is initialised. A `LeafNode` has no destructor of its own, so what is still
initialised when its box is freed is never destroyed. -/
def Store.LeavesEmpty (s : Store K V A) : Prop :=
  ∀ (i : Nat) (l : LeafS K V), s.leaves[i]? = some (some l) →
    (∀ x ∈ l.ks, x = none) ∧ ∀ x ∈ l.vs, x = none

end Raw
end Bpt
