import Verif.History
import Verif.Model.Unordered

/-!
# Vocabulary for maps whose keys are compared by arbitrary code

What each call may do to the sequence of items, said without any order on the keys.
-/

namespace Bpt
variable {K V A : Type}

/-- A call of the map API; the comparisons it makes are given separately. `remove`, `get`, `getMut`
have no key: the argument only shows through the comparisons. -/
inductive UCall (K V : Type) where
  | insert (k : K) (v : V)
  | remove
  | get
  | getMut (f : V → V)
  | first
  | last
  | len
  | isEmpty
  | iter (n : Nat)
  | iterBack (n : Nat)
  | cursorNext (c : Cursor K)
  | cursorPrev (c : Cursor K)
  | cursorValue (c : Cursor K)
  | getCursor (k : K)
  | clear

/-- A call on the tree, with the answers of its comparisons. -/
def Tree.ucall [Augmentation K V A] (t : Tree K V A) (o : Answers K) :
    UCall K V → Res (Answer K V × Tree K V A)
  | .insert k v => do let (r, t) ← t.insertU o k v; return (.value r, t)
  | .remove => do let (r, t) ← t.removeU o; return (.value r, t)
  | .get => do let (r, t) ← t.getU o; return (.value r, t)
  | .getMut f => do let (r, t) ← t.getMutU o f; return (.value r, t)
  | .first => do let r ← t.first; return (.entry r, t)
  | .last => do let r ← t.last; return (.entry r, t)
  | .len => return (.number t.len, t)
  | .isEmpty => return (.flag t.isEmpty, t)
  | .iter n => do
    let it ← t.iter
    let r ← it.runCalls t (List.replicate n .front)
    return (.entries (r.map (·.1)), t)
  | .iterBack n => do
    let it ← t.iter
    let r ← it.runCalls t (List.replicate n .back)
    return (.entries (r.map (·.1)), t)
  | .cursorNext c => do
    let r ← c.nextWithValueU o t
    return (.entry (r.map (fun p => (p.1.k, p.2))), t)
  | .cursorPrev c => do
    let r ← c.prevWithValueU o t
    return (.entry (r.map (fun p => (p.1.k, p.2))), t)
  | .cursorValue c => do let r ← c.valueU o t; return (.value r, t)
  | .getCursor k => do
    match ← t.getCursorU o k with
    | some (c, v) => return (.keyValue c.k v, t)
    | none => return (.done, t)
  | .clear => return (.done, t.clear)

/-- A sequence of calls on the tree, each with its own answers. -/
def Tree.urun [Augmentation K V A] (t : Tree K V A) :
    List (Answers K × UCall K V) → Res (List (Answer K V) × Tree K V A)
  | [] => return ([], t)
  | (o, c) :: cs => do
    let (a, t) ← t.ucall o c
    let (as, t) ← Tree.urun t cs
    return (a :: as, t)

/-- What a call may return and do to the sequence `l` of items, whatever the comparisons say: at most
one item is added, replaced or removed, the answer shows that item, and nothing else moves. -/
inductive Effect : UCall K V → Answer K V → List (K × V) → List (K × V) → Prop
  | inserted {k v a b} : Effect (.insert k v) (.value none) (a ++ b) (a ++ (k, v) :: b)
  | updated {k v a k0 v0 b} :
      Effect (.insert k v) (.value (some v0)) (a ++ (k0, v0) :: b) (a ++ (k0, v) :: b)
  | removed {a k v b} : Effect .remove (.value (some v)) (a ++ (k, v) :: b) (a ++ b)
  | notRemoved {l} : Effect .remove (.value none) l l
  | got {k v l} : (k, v) ∈ l → Effect .get (.value (some v)) l l
  | notGot {l} : Effect .get (.value none) l l
  | changed {f a k v b} :
      Effect (.getMut f) (.value (some v)) (a ++ (k, v) :: b) (a ++ (k, f v) :: b)
  | notChanged {f l} : Effect (.getMut f) (.value none) l l
  | first {l} : Effect .first (.entry l.head?) l l
  | last {l} : Effect .last (.entry l.getLast?) l l
  | len {l} : Effect .len (.number l.length) l l
  | isEmpty {l} : Effect .isEmpty (.flag l.isEmpty) l l
  | iter {n l} : Effect (.iter n) (.entries ((List.range n).map (fun i => l[i]?))) l l
  | iterBack {n l} : Effect (.iterBack n) (.entries ((List.range n).map (fun i => l.reverse[i]?))) l l
  | next {c e l} : e ∈ l → Effect (.cursorNext c) (.entry (some e)) l l
  | noNext {c l} : Effect (.cursorNext c) (.entry none) l l
  | prev {c e l} : e ∈ l → Effect (.cursorPrev c) (.entry (some e)) l l
  | noPrev {c l} : Effect (.cursorPrev c) (.entry none) l l
  | value {c k v l} : (k, v) ∈ l → Effect (.cursorValue c) (.value (some v)) l l
  | noValue {c l} : Effect (.cursorValue c) (.value none) l l
  | cursor {k k0 v l} : (k0, v) ∈ l → Effect (.getCursor k) (.keyValue k (some v)) l l
  | noCursor {k l} : Effect (.getCursor k) (.keyValue k none) l l
  | clear {l} : Effect .clear .done l []

/-- A sequence of calls, their answers, and the items before and after. -/
inductive Effects : List (UCall K V) → List (Answer K V) → List (K × V) → List (K × V) → Prop
  | nil {l} : Effects [] [] l l
  | cons {c cs a as l l' l''} : Effect c a l l' → Effects cs as l' l'' →
      Effects (c :: cs) (a :: as) l l''

/-- The items of a tree, as every way of taking them out shows them: `len`, dropping the map, and any
schedule of calls on `into_iter()`, dropped midway. -/
structure Contents (t : Tree K V A) (l : List (K × V)) : Prop where
  len : t.len = l.length
  drop : t.drop = .ok l
  into : ∀ ds, ∃ it it', t.intoIter = .ok it ∧ it.runCalls ds = .ok ((Spec.pulls l ds).1, it') ∧
    it'.drop = .ok (Spec.pulls l ds).2

/-- The answers a linear order gives for argument `k`. -/
def Answers.ofOrder [LinearOrder K] (early : Bool) (k : K) : Answers K where
  early := early
  inner _ _ x := compare x k
  leaf _ x := compare x k
  lt i x := if i % 2 = 0 then decide (k < x) else decide (x < k)
  eq x := decide (x = k)

/-- A call of the API as a call with separate answers. -/
def Call.lawless : Call K V → UCall K V
  | .insert k v => .insert k v
  | .remove _ => .remove
  | .get _ => .get
  | .getMut _ f => .getMut f
  | .first => .first
  | .last => .last
  | .len => .len
  | .isEmpty => .isEmpty
  | .iter n => .iter n
  | .iterBack n => .iterBack n
  | .cursorNext c => .cursorNext c
  | .cursorPrev c => .cursorPrev c
  | .cursorValue c => .cursorValue c
  | .getCursor k => .getCursor k
  | .clear => .clear

/-- The answers a linear order gives during a call; calls without a key ask nothing. -/
def Call.answers [LinearOrder K] (early : Bool) : Call K V → Answers K
  | .insert k _ | .remove k | .get k | .getMut k _ | .getCursor k => .ofOrder early k
  | .cursorNext c | .cursorPrev c | .cursorValue c => .ofOrder early c.k
  | _ => ⟨early, fun _ _ _ => .eq, fun _ _ => .eq, fun _ _ => false, fun _ => false⟩

end Bpt
