import Verif.LawlessHistory
import Verif.StartSpec

/-!
# Vocabulary for keys that compare equal without being equal

`rank : K → O` sends a key to its place in a linear order `O`. Two keys of the same rank are what
`Ord` calls equal; they may differ in everything the order does not look at. A lookup takes a place
`q : O`: this covers lookups by any borrowed form `Q` of the key, since `Borrow` asks `Q` to be ordered
like `K`.
-/

namespace Bpt
variable {K O V A : Type} [LinearOrder O]

namespace Spec

/-- The value of the item whose key has rank `q`. -/
def lookupBy (rank : K → O) (q : O) (l : List (K × V)) : Option V :=
  (l.find? (fun e => rank e.1 = q)).map (·.2)

/-- Inserting `k`, `v`: a key of the same rank keeps its place and stays as it is, only its value is
replaced. -/
def insertBy (rank : K → O) (k : K) (v : V) : List (K × V) → List (K × V)
  | [] => [(k, v)]
  | (k0, v0) :: l =>
    if rank k0 < rank k then (k0, v0) :: insertBy rank k v l
    else if rank k0 = rank k then (k0, v) :: l
    else (k, v) :: (k0, v0) :: l

/-- Removing the item whose key has rank `q`. -/
def eraseBy (rank : K → O) (q : O) (l : List (K × V)) : List (K × V) :=
  l.filter (fun e => rank e.1 ≠ q)

/-- Changing the value of the item whose key has rank `q`. -/
def modifyBy (rank : K → O) (q : O) (f : V → V) (l : List (K × V)) : List (K × V) :=
  l.map (fun e => if rank e.1 = q then (e.1, f e.2) else e)

end Spec

/-- A call of the map API. Lookups take the place of a key in the order; insertions and cursors have
a key. -/
inductive QCall (K O V : Type) where
  | insert (k : K) (v : V)
  | remove (q : O)
  | get (q : O)
  | getMut (q : O) (f : V → V)
  | first
  | last
  | len
  | isEmpty
  | iter (n : Nat)
  | iterBack (n : Nat)
  | cursorNext (c : Cursor K)
  | cursorPrev (c : Cursor K)
  | cursorValue (c : Cursor K)
  | getCursor (k : K)
  | clear

/-- The same call on a list of items in increasing rank. -/
def Spec.callBy (rank : K → O) (l : List (K × V)) : QCall K O V → Answer K V × List (K × V)
  | .insert k v => (.value (lookupBy rank (rank k) l), insertBy rank k v l)
  | .remove q => (.value (lookupBy rank q l), eraseBy rank q l)
  | .get q => (.value (lookupBy rank q l), l)
  | .getMut q f => (.value (lookupBy rank q l), modifyBy rank q f l)
  | .first => (.entry l.head?, l)
  | .last => (.entry l.getLast?, l)
  | .len => (.number l.length, l)
  | .isEmpty => (.flag l.isEmpty, l)
  | .iter n => (.entries ((List.range n).map (fun i => l[i]?)), l)
  | .iterBack n => (.entries ((List.range n).map (fun i => l.reverse[i]?)), l)
  | .cursorNext c => (.entry (l.filter (fun e => rank c.k < rank e.1)).head?, l)
  | .cursorPrev c => (.entry (l.filter (fun e => rank e.1 < rank c.k)).getLast?, l)
  | .cursorValue c => (.value (lookupBy rank (rank c.k) l), l)
  | .getCursor k => (.keyValue k (lookupBy rank (rank k) l), l)
  | .clear => (.done, [])

/-- A sequence of calls on a list of items in increasing rank. -/
def Spec.runBy (rank : K → O) (l : List (K × V)) :
    List (QCall K O V) → List (Answer K V) × List (K × V)
  | [] => ([], l)
  | c :: cs => ((callBy rank l c).1 :: (runBy rank (callBy rank l c).2 cs).1,
      (runBy rank (callBy rank l c).2 cs).2)

/-- A call as a call with separate answers. -/
def QCall.lawless : QCall K O V → UCall K V
  | .insert k v => .insert k v
  | .remove _ => .remove
  | .get _ => .get
  | .getMut _ f => .getMut f
  | .first => .first
  | .last => .last
  | .len => .len
  | .isEmpty => .isEmpty
  | .iter n => .iter n
  | .iterBack n => .iterBack n
  | .cursorNext c => .cursorNext c
  | .cursorPrev c => .cursorPrev c
  | .cursorValue c => .cursorValue c
  | .getCursor k => .getCursor k
  | .clear => .clear

/-- The answers of comparisons with the place `q`. -/
def Answers.ofRank (rank : K → O) (early : Bool) (q : O) : Answers K where
  early := early
  inner _ _ x := compare (rank x) q
  leaf _ x := compare (rank x) q
  lt i x := if i % 2 = 0 then decide (q < rank x) else decide (rank x < q)
  eq x := decide (rank x = q)

/-- The answers of the comparisons during a call; calls without a key ask nothing. -/
def QCall.answers (rank : K → O) (early : Bool) : QCall K O V → Answers K
  | .remove q | .get q | .getMut q _ => .ofRank rank early q
  | .insert k _ | .getCursor k => .ofRank rank early (rank k)
  | .cursorNext c | .cursorPrev c | .cursorValue c => .ofRank rank early (rank c.k)
  | _ => ⟨early, fun _ _ _ => .eq, fun _ _ => .eq, fun _ _ => false, fun _ => false⟩

/-- A sequence of calls on the tree, keys compared by rank. -/
def Tree.runBy [Augmentation K V A] (rank : K → O) (early : Bool) (t : Tree K V A)
    (cs : List (QCall K O V)) : Res (List (Answer K V) × Tree K V A) :=
  t.urun (cs.map fun c => (c.answers rank early, c.lawless))

/-- `bulk_load` where `==` says which keys have the same rank. -/
def Tree.bulkLoadBy [Augmentation K V A] (rank : K → O) (data : List (K × V)) : Res (Tree K V A) :=
  Tree.bulkLoadU (fun _ a b => decide (rank a = rank b)) data

/-- `FromIterator`, src/map.rs:300-306: stable sort by rank, then `bulk_load`. -/
def Tree.fromIterBy [Augmentation K V A] (rank : K → O) (items : List (K × V)) : Res (Tree K V A) :=
  Tree.bulkLoadBy rank (items.mergeSort (fun a b => decide (rank a.1 ≤ rank b.1)))

/-- The items in increasing rank; of those with the same rank, the last one with its key. -/
def Spec.lastBy (rank : K → O) (items : List (K × V)) : List (K × V) :=
  (Spec.insertAll [] (items.map (fun e => (rank e.1, e)))).map (·.2)

/-- A map that has just been made, and its items: an empty map, or a bulk load of data in the order of
their ranks whose leaves group without a lone child. -/
inductive FreshBy [Augmentation K V A] (rank : K → O) : Tree K V A → List (K × V) → Prop
  | new : FreshBy rank Tree.new []
  | load {data : List (K × V)} {t : Tree K V A} : data.length < 2 ^ 64 →
      data.Pairwise (fun a b => rank a.1 ≤ rank b.1) →
      EvenlyGrouped (leavesFor (Spec.lastBy rank data).length) → Tree.bulkLoadBy rank data = .ok t →
      FreshBy rank t (Spec.lastBy rank data)

end Bpt
