import Verif.History
import Verif.Model.Map

/-!
# Histories of `BPlusTreeMap<K, V, Count>`

All methods of the public map type with the counting augmentation, next to their meaning on a sorted
association list.
-/

namespace Bpt
variable {K V : Type} [LinearOrder K]

/-- A call of the map API with order statistics. `iter n` / `iterBack n` are `n` calls of `next` /
`next_back` on a fresh `iter()`; `getMut` and `nthMut` apply `f` through the returned reference. -/
inductive MapCall (K V : Type) where
  | insert (k : K) (v : V)
  | remove (k : K)
  | get (k : K)
  | getMut (k : K) (f : V → V)
  | len
  | isEmpty
  | iter (n : Nat)
  | iterBack (n : Nat)
  | count
  | nth (i : Nat)
  | nthMut (i : Nat) (f : V → V)
  | removeNth (i : Nat)
  | rank (k : K)

/-- What a call returns. `iter n` gives each answer with the `len()` of the iterator after it. -/
inductive MapAnswer (K V : Type) where
  | value (o : Option V)
  | entry (o : Option (K × V))
  | number (n : Nat)
  | flag (b : Bool)
  | counted (os : List (Option (K × V) × Nat))
  | entries (os : List (Option (K × V)))
  | found (r : Except Nat Nat)

/-- A call on the map. -/
def BMap.call (m : BMap K V Count) : MapCall K V → Res (MapAnswer K V × BMap K V Count)
  | .insert k v => do let (o, m) ← m.insert k v; return (.value o, m)
  | .remove k => do let (o, m) ← m.remove k; return (.value o, m)
  | .get k => do let (o, m) ← m.get k; return (.value o, m)
  | .getMut k f => do let (o, m) ← m.getMut k f; return (.value o, m)
  | .len => return (.number m.len, m)
  | .isEmpty => return (.flag m.isEmpty, m)
  | .iter n => do
    let it ← m.iter
    let r ← it.runCalls m (List.replicate n .front)
    return (.counted r, m)
  | .iterBack n => do
    let it ← m.iter
    let r ← it.runCalls m (List.replicate n .back)
    return (.entries (r.map (·.1)), m)
  | .count => return (.number m.rootAugmentation.count, m)
  | .nth i => do let o ← m.getByAugmentation i; return (.entry o, m)
  | .nthMut i f => do let (o, m) ← m.getMutByAugmentation i f; return (.value o, m)
  | .removeNth i => do let (o, m) ← m.removeByAugmentation i; return (.entry o, m)
  | .rank k => do let r ← m.rankByAugmentation k; return (.found r, m)

/-- A sequence of calls on the map. -/
def BMap.run (m : BMap K V Count) : List (MapCall K V) → Res (List (MapAnswer K V) × BMap K V Count)
  | [] => return ([], m)
  | c :: cs => do
    let (a, m) ← m.call c
    let (as, m) ← BMap.run m cs
    return (a :: as, m)

/-- The same call on a sorted association list. -/
def Spec.mapCall (l : List (K × V)) : MapCall K V → MapAnswer K V × List (K × V)
  | .insert k v => (.value (lookup k l), upsert k v l)
  | .remove k => (.value (lookup k l), erase k l)
  | .get k => (.value (lookup k l), l)
  | .getMut k f => (.value (lookup k l), Spec.modify k f l)
  | .len => (.number l.length, l)
  | .isEmpty => (.flag l.isEmpty, l)
  | .iter n => (.counted ((List.range n).map (fun i => (l[i]?, l.length - (i + 1)))), l)
  | .iterBack n => (.entries ((List.range n).map (fun i => l.reverse[i]?)), l)
  | .count => (.number l.length, l)
  | .nth i => (.entry l[i]?, l)
  | .nthMut i f => (.value (l[i]?.map (·.2)), l.modify i (fun e => (e.1, f e.2)))
  | .removeNth i => (.entry l[i]?, l.eraseIdx i)
  | .rank k => (.found (
      if k ∈ l.map (·.1) then .ok (l.filter (fun e => e.1 < k)).length
      else .error (l.filter (fun e => e.1 < k)).length), l)

/-- The same sequence of calls on a sorted association list. -/
def Spec.mapRun (l : List (K × V)) : List (MapCall K V) → List (MapAnswer K V) × List (K × V)
  | [] => ([], l)
  | c :: cs => ((Spec.mapCall l c).1 :: (Spec.mapRun (Spec.mapCall l c).2 cs).1,
      (Spec.mapRun (Spec.mapCall l c).2 cs).2)

end Bpt
