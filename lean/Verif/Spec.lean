import Mathlib.Data.List.Sort
import Verif.Model.Basic

/-!
# Specification: finite ordered maps

Independent of the model. A finite ordered map is the list of its entries in strictly increasing key
order.
-/

namespace Bpt.Spec
variable {K V : Type} [LinearOrder K]

/-- Strictly increasing keys. -/
def Sorted (l : List (K × V)) : Prop := l.Pairwise (fun a b => a.1 < b.1)

/-- The value of key `k`. -/
def lookup (k : K) (l : List (K × V)) : Option V := (l.find? (fun e => e.1 = k)).map (·.2)

/-- Setting the value of key `k` to `v`. -/
def upsert (k : K) (v : V) (l : List (K × V)) : List (K × V) :=
  l.filter (fun e => e.1 < k) ++ (k, v) :: l.filter (fun e => k < e.1)

/-- Removing key `k`. -/
def erase (k : K) (l : List (K × V)) : List (K × V) := l.filter (fun e => e.1 ≠ k)

/-- Changing the value of key `k`, if present, by `f`. -/
def modify (k : K) (f : V → V) (l : List (K × V)) : List (K × V) :=
  l.map (fun e => if e.1 = k then (e.1, f e.2) else e)


/-- The entry with the smallest key greater than `k`, in a list sorted by key. -/
def succ (k : K) (l : List (K × V)) : Option (K × V) := (l.filter (fun e => k < e.1)).head?

/-- The entry with the largest key smaller than `k`, in a list sorted by key. -/
def pred (k : K) (l : List (K × V)) : Option (K × V) := (l.filter (fun e => e.1 < k)).getLast?

/-- All insertions, in order. -/
def insertAll (l items : List (K × V)) : List (K × V) :=
  items.foldl (fun m e => upsert e.1 e.2 m) l

/-! ## Double-ended queues -/

/-- One call on a double-ended queue: the answer and what is left. -/
def pull {α : Type} (l : List α) : Dir → Option α × List α
  | .front => (l.head?, l.tail)
  | .back => (l.getLast?, l.dropLast)

/-- A schedule of calls on a double-ended queue: the answers, each with the number of items left
after it, and what is left at the end. -/
def pulls {α : Type} : List α → List Dir → List (Option α × Nat) × List α
  | l, [] => ([], l)
  | l, d :: ds =>
    (((pull l d).1, (pull l d).2.length) :: (pulls (pull l d).2 ds).1,
      (pulls (pull l d).2 ds).2)

end Bpt.Spec
