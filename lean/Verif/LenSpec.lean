import Verif.History

/-!
# A sorted association list with a length field that may be wrong
-/

namespace Bpt
open Spec
variable {K V : Type}

/-- A call on a sorted association list with a counter `n` beside it that need not be its length: what a map
answers that keeps its length in a field, counts it up and down, and looks only at the field to see whether
it is empty. `none`: the field would be counted below 0, or an item is looked for in an empty map of
which the field says that it is not empty. -/
def Spec.callLen [LinearOrder K] (l : List (K × V)) (n : Nat) : Call K V → Option (Answer K V × List (K × V) × Nat)
  | .insert k v => some (.value (lookup k l), upsert k v l, if (lookup k l).isNone then n + 1 else n)
  | .remove k =>
    if (lookup k l).isNone then some (.value none, l, n)
    else if n = 0 then none else some (.value (lookup k l), erase k l, n - 1)
  | .len => some (.number n, l, n)
  | .isEmpty => some (.flag (n == 0), l, n)
  | .first => if n = 0 then some (.entry none, l, n) else if l.isEmpty then none else some (.entry l.head?, l, n)
  | .last => if n = 0 then some (.entry none, l, n) else if l.isEmpty then none else some (.entry l.getLast?, l, n)
  | .clear => some (.done, [], 0)
  | .iter m =>
    if n ≠ 0 ∧ m ≠ 0 ∧ l.isEmpty then none
    else some (.entries ((List.range m).map (fun i => if i < n then l[i]? else none)), l, n)
  | .iterBack m =>
    if n = 0 then some (.entries (List.replicate m none), l, n)
    else some (.entries ((List.range m).map (fun i => l.reverse[i]?)), l, n)
  | c => some ((Spec.call l c).1, (Spec.call l c).2, n)

/-- The same for a history. -/
def Spec.runLen [LinearOrder K] (l : List (K × V)) (n : Nat) :
    List (Call K V) → Option (List (Answer K V) × List (K × V) × Nat)
  | [] => some ([], l, n)
  | c :: cs =>
    match Spec.callLen l n c with
    | none => none
    | some (a, l, n) =>
      match Spec.runLen l n cs with
      | none => none
      | some (as, l, n) => some (a :: as, l, n)

end Bpt
